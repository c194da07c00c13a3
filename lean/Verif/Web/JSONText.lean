import Verif.Web.Clock
import Verif.Web.JSON

/-!
# The text of JSON values (encoding/json)

What `json.Encoder.Encode` writes, on the values of the structs of trc: strings, integers, booleans, nil, arrays, objects and
times; with and without `SetIndent("", "    ")`.  The package is not in the repository; this follows its documentation and
the source of Go 1.22.  Earlier versions write `\u0008` and `\u000c` for `\b` and `\f`.  Strings are valid UTF-8 here (others
are written with replacement characters).
-/

namespace Trc.Web

/-- A JSON value as its text has it: a number is its literal. -/
inductive JText where
  | null
  | bool (b : Bool)
  | num (literal : List Char)
  | str (s : String)
  | arr (l : List JText)
  | obj (l : List (String × JText))

/-- A hexadecimal digit in lower case. -/
def hexChar (n : Nat) : Char := if n < 10 then Char.ofNat (48 + n) else Char.ofNat (87 + n)

/-- `\uXXXX` -/
def escapeU (n : Nat) : List Char :=
  ['\\', 'u', hexChar (n / 4096 % 16), hexChar (n / 256 % 16), hexChar (n / 16 % 16), hexChar (n % 16)]

/-- What `appendString` writes for a character, with `escapeHTML`. -/
def escapeChar (c : Char) : List Char :=
  if c = '"' then ['\\', '"']
  else if c = '\\' then ['\\', '\\']
  else if c = '\x08' then ['\\', 'b']
  else if c = '\x0c' then ['\\', 'f']
  else if c = '\n' then ['\\', 'n']
  else if c = '\r' then ['\\', 'r']
  else if c = '\t' then ['\\', 't']
  else if c.toNat < 32 then escapeU c.toNat
  else if c = '<' ∨ c = '>' ∨ c = '&' then escapeU c.toNat
  else if c.toNat = 0x2028 ∨ c.toNat = 0x2029 then escapeU c.toNat
  else [c]

/-- A string. -/
def writeString (s : String) : List Char := '"' :: (s.toList.flatMap escapeChar ++ ['"'])

/-- How values are laid out: what comes before an element at some depth, and after the colon. -/
structure Layout where
  newline : Nat → List Char
  space : List Char

/-- Without `SetIndent`. -/
def compact : Layout := { newline := fun _ => [], space := [] }

/-- With `SetIndent("", "    ")`. -/
def pretty : Layout := { newline := fun d => '\n' :: List.replicate (4 * d) ' ', space := [' '] }

mutual
/-- The text of a value at some depth. -/
def write (y : Layout) (d : Nat) : JText → List Char
  | .null => ['n', 'u', 'l', 'l']
  | .bool b => if b then ['t', 'r', 'u', 'e'] else ['f', 'a', 'l', 's', 'e']
  | .num n => n
  | .str s => writeString s
  | .arr [] => ['[', ']']
  | .arr (v :: l) => '[' :: (y.newline (d + 1) ++ (write y (d + 1) v ++ writeElems y d l))
  | .obj [] => ['{', '}']
  | .obj ((k, v) :: l) => '{' :: (y.newline (d + 1) ++ (writeString k ++ ':' :: (y.space ++ (write y (d + 1) v ++ writeMembers y d l))))

/-- The rest of an array. -/
def writeElems (y : Layout) (d : Nat) : List JText → List Char
  | [] => y.newline d ++ [']']
  | v :: l => ',' :: (y.newline (d + 1) ++ (write y (d + 1) v ++ writeElems y d l))

/-- The rest of an object. -/
def writeMembers (y : Layout) (d : Nat) : List (String × JText) → List Char
  | [] => y.newline d ++ ['}']
  | (k, v) :: l => ',' :: (y.newline (d + 1) ++ (writeString k ++ ':' :: (y.space ++ (write y (d + 1) v ++ writeMembers y d l))))
end

/-- `Encode`. -/
def encodeLine (y : Layout) (v : JText) : List Char := write y 0 v ++ ['\n']

/-! ## Integers and times -/

/-- An integer. -/
def intText (n : Int) : JText := .num (if n < 0 then '-' :: fmtInt n.natAbs else fmtInt n.natAbs)

/-- The days before a year, given the number of years from year 1. -/
def daysBefore (y : Nat) : Nat := 365 * y + y / 4 - y / 100 + y / 400

/-- The number of years from year 1 to that of a day. -/
def yearOf (d : Nat) : Nat :=
  let e := d * 400 / 146097
  if daysBefore (e + 1) ≤ d then e + 1 else if d < daysBefore e then e - 1 else e

/-- A leap year, of years from 1. -/
def leap (year : Nat) : Bool := year % 4 == 0 && (year % 100 != 0 || year % 400 == 0)

/-- The days of the months. -/
def monthDays (year : Nat) : List Nat := [31, if leap year then 29 else 28, 31, 30, 31, 30, 31, 31, 30, 31, 30, 31]

/-- The month and the day of the month, from 0. -/
def splitMonth : List Nat → Nat → Nat × Nat
  | [], r => (0, r)
  | m :: ms, r => if r < m then (0, r) else ((splitMonth ms (r - m)).1 + 1, (splitMonth ms (r - m)).2)

/-- Nine digits, without zeros at the end. -/
def fraction (ns : Nat) : List Char := ((digits 9 ns).reverse.dropWhile (· == '0')).reverse

/-- A time in UTC in the format `time.RFC3339Nano`, from the nanoseconds since the zero time. -/
def rfc3339 (ns : Nat) : List Char :=
  let day := ns / (86400 * 1000000000)
  let y := yearOf day
  let md := splitMonth (monthDays (y + 1)) (day - daysBefore y)
  let r := ns % (86400 * 1000000000)
  let s := r / 1000000000
  let f := fraction (r % 1000000000)
  digits 4 (y + 1) ++ '-' :: (digits 2 (md.1 + 1) ++ '-' :: (digits 2 (md.2 + 1) ++ 'T' :: (digits 2 (s / 3600) ++ ':' ::
    (digits 2 (s / 60 % 60) ++ ':' :: (digits 2 (s % 60) ++ ((if f = [] then [] else '.' :: f) ++ ['Z']))))))

/-- `Time.MarshalJSON`, for times from year 1 to year 9999 in UTC, given the nanoseconds since the zero time. -/
def timeText (wall : Int) : JText := .str (String.ofList (rfc3339 wall.toNat))

mutual
/-- The text of the values of `Verif/Web/JSON.lean`. -/
def jtext : JSON → JText
  | .null => .null
  | .bool b => .bool b
  | .num n => intText n
  | .str s => .str s
  | .time w => timeText w
  | .arr l => .arr (textElems l)
  | .obj l => .obj (textMembers l)

def textElems : List JSON → List JText
  | [] => []
  | v :: l => jtext v :: textElems l

def textMembers : List (String × JSON) → List (String × JText)
  | [] => []
  | (k, v) :: l => (k, jtext v) :: textMembers l
end

end Trc.Web
