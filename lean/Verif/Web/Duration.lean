import Verif.Time

/-!
# `time.Duration.String` and `time.ParseDuration`

The standard library functions that `trcweb/util.go` uses to put a duration into a URL and read it
back (Go 1.22, `time/time.go: Duration.format, fmtFrac, fmtInt` and `time/format.go: ParseDuration,
leadingInt, leadingFraction`).  They are modelled statement by statement on lists of characters, so
that the round trip is proved and not assumed.

The one floating point expression, `uint64(float64(f) * (float64(unit) / scale))`, is a parameter
`mulFrac f unit k` (with `scale = 10^k`), of which only `ExactMul` is used: it is exact when
`10^k` divides the unit and the product is less than `2^53`, where every intermediate value is an
integer that a `float64` represents.
-/

namespace Trc.Web

/-- `byte(n) + '0'` for `n < 10`. -/
def digitChar (n : Nat) : Char := Char.ofNat (48 + n)

/-- `'0' <= c && c <= '9'` -/
def isDigit (c : Char) : Bool := decide (48 ≤ c.toNat ∧ c.toNat ≤ 57)

/-- `c - '0'` -/
def digitVal (c : Char) : Nat := c.toNat - 48

/-- `fmtInt`: the decimal digits. -/
def fmtInt (v : Nat) : List Char :=
  if v < 10 then [digitChar v] else fmtInt (v / 10) ++ [digitChar (v % 10)]

/-- The loop of `fmtFrac`: what has been written so far (the buffer is filled from the right), the
flag `print`, and the value left. -/
def fmtFracLoop : Nat → Nat → Bool → List Char → List Char × Bool × Nat
  | 0, v, print, acc => (acc, print, v)
  | i + 1, v, print, acc =>
    let print := print || v % 10 != 0
    fmtFracLoop i (v / 10) print (if print then digitChar (v % 10) :: acc else acc)

/-- `fmtFrac`: the fraction and the value left. -/
def fmtFrac (v prec : Nat) : List Char × Nat :=
  let r := fmtFracLoop prec v false []
  (if r.2.1 then '.' :: r.1 else r.1, r.2.2)

/-- Durations below a second, `Duration.format`. -/
def formatSmall (u : Nat) : List Char :=
  if u = 0 then ['0', 's']
  else if u < 1000 then let r := fmtFrac u 0; fmtInt r.2 ++ r.1 ++ ['n', 's']
  else if u < 1000000 then let r := fmtFrac u 3; fmtInt r.2 ++ r.1 ++ ['µ', 's']
  else let r := fmtFrac u 6; fmtInt r.2 ++ r.1 ++ ['m', 's']

/-- The hours and minutes of `Duration.format`, for `m` whole minutes. -/
def formatMinutes (m : Nat) : List Char :=
  if 0 < m then
    (if 0 < m / 60 then fmtInt (m / 60) ++ ['h'] else []) ++ fmtInt (m % 60) ++ ['m']
  else []

/-- Durations from a second, `Duration.format`. -/
def formatLarge (u : Nat) : List Char :=
  let r := fmtFrac u 9
  formatMinutes (r.2 / 60) ++ fmtInt (r.2 % 60) ++ r.1 ++ ['s']

/-- `Duration.format` on the absolute value. -/
def formatAbs (u : Nat) : List Char :=
  if u < 1000000000 then formatSmall u else formatLarge u

/-- `Duration.String` -/
def durationString (d : Duration) : List Char :=
  if d < 0 then '-' :: formatAbs d.natAbs else formatAbs d.natAbs

/-! ## Parsing -/

/-- `1 << 63` -/
def two63 : Nat := 9223372036854775808

/-- `leadingInt`: `none` on overflow. -/
def leadingInt : Nat → List Char → Option (Nat × List Char)
  | x, [] => some (x, [])
  | x, c :: s =>
    if !isDigit c then some (x, c :: s)
    else if x > two63 / 10 then none
    else
      let x := x * 10 + digitVal c
      if x > two63 then none else leadingInt x s

/-- `leadingFraction`: the value, the power of ten of the scale, and the rest.  After an overflow
the remaining digits are skipped. -/
def leadingFraction : Nat → Nat → Bool → List Char → Nat × Nat × List Char
  | x, k, _, [] => (x, k, [])
  | x, k, overflow, c :: s =>
    if !isDigit c then (x, k, c :: s)
    else if overflow then leadingFraction x k true s
    else if x > (two63 - 1) / 10 then leadingFraction x k true s
    else
      let y := x * 10 + digitVal c
      if y > two63 then leadingFraction x k true s else leadingFraction y (k + 1) false s

/-- `unitMap` -/
def unitMap (u : List Char) : Option Nat :=
  if u = ['n', 's'] then some 1
  else if u = ['u', 's'] then some 1000
  else if u = ['µ', 's'] then some 1000  -- U+00B5 = micro symbol
  else if u = ['μ', 's'] then some 1000  -- U+03BC = Greek letter mu
  else if u = ['m', 's'] then some 1000000
  else if u = ['s'] then some 1000000000
  else if u = ['m'] then some 60000000000
  else if u = ['h'] then some 3600000000000
  else none

/-- The scan for the end of the unit stops here. -/
def endsUnit (c : Char) : Bool := c == '.' || isDigit c

/-- `(\.[0-9]*)?`: value and scale, whether digits were there, the rest. -/
def parseFrac (s : List Char) : (Nat × Nat) × Bool × List Char :=
  match s with
  | '.' :: s =>
    let r := leadingFraction 0 0 false s
    ((r.1, r.2.1), s.length != r.2.2.length, r.2.2)
  | s => ((0, 0), false, s)

/-- A number, its fraction and its unit put together; `none` on overflow. -/
def combine (mulFrac : Nat → Nat → Nat → Nat) (v f k unit : Nat) : Option Nat :=
  if v > two63 / unit then none
  else
    let v := v * unit
    if f > 0 then
      let v := v + mulFrac f unit k
      if v > two63 then none else some v
    else some v

/-- The unit at the front of `s`, and what follows. -/
def parseUnit (s : List Char) : Option (Nat × List Char) :=
  let u := s.takeWhile (fun c => !endsUnit c)
  if u = [] then none
  else (unitMap u).map (fun unit => (unit, s.dropWhile (fun c => !endsUnit c)))

/-- One round of the loop of `ParseDuration` up to `d += v`: the value and the rest. -/
def parseComponent (mulFrac : Nat → Nat → Nat → Nat) (s : List Char) : Option (Nat × List Char) := do
  let c ← s.head?
  if !endsUnit c then none else do
  let r ← leadingInt 0 s
  let fr := parseFrac r.2
  if s.length = r.2.length ∧ fr.2.1 = false then none else do
  let u ← parseUnit fr.2.2
  let v ← combine mulFrac r.1 fr.1.1 fr.1.2 u.1
  return (v, u.2)

/-- The loop of `ParseDuration`.  Every round consumes something, so `s.length` rounds suffice
(`parseComponent_shorter`). -/
def parseLoop (mulFrac : Nat → Nat → Nat → Nat) : Nat → Nat → List Char → Option Nat
  | _, d, [] => some d
  | 0, _, _ :: _ => none
  | n + 1, d, c :: s =>
    match parseComponent mulFrac (c :: s) with
    | none => none
    | some (v, rest) => if d + v > two63 then none else parseLoop mulFrac n (d + v) rest

/-- `[-+]?`: the sign and the rest. -/
def parseSign (s : List Char) : Bool × List Char :=
  match s with
  | '-' :: s => (true, s)
  | '+' :: s => (false, s)
  | s => (false, s)

/-- What `ParseDuration` does after the sign. -/
def parseAbs (mulFrac : Nat → Nat → Nat → Nat) (neg : Bool) (s : List Char) : Option Duration :=
  if s = ['0'] then some 0
  else if s = [] then none
  else match parseLoop mulFrac s.length 0 s with
    | none => none
    | some d => if neg then some (-(d : Int)) else if d > two63 - 1 then none else some (d : Int)

/-- `time.ParseDuration`; `none` is an error. -/
def parseDuration (mulFrac : Nat → Nat → Nat → Nat) (s : List Char) : Option Duration :=
  parseAbs mulFrac (parseSign s).1 (parseSign s).2

/-- What is assumed of the floating point product: it is exact where every intermediate value is an
integer below `2^53`. -/
def ExactMul (mulFrac : Nat → Nat → Nat → Nat) : Prop :=
  ∀ f unit k, 10 ^ k ∣ unit → f * (unit / 10 ^ k) < 2 ^ 53 → unit < 2 ^ 53 → f < 2 ^ 53 →
    mulFrac f unit k = f * (unit / 10 ^ k)

end Trc.Web
