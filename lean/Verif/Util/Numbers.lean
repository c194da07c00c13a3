import Verif.Web.Duration

/-!
# Model of `internal/trcutil/humanize.go`: `HumanizeFloat`, `HumanizeBytes`

A float64 is the rational number that it stands for.  The quotient of two of them is rounded; how is a
parameter.
-/

namespace Trc.Util

open Trc.Web (fmtInt digitChar)

/-- The nearest integer, of two the even one. -/
def roundEven (x : Rat) : Int :=
  let n := x.floor
  if x - n < 1 / 2 then n
  else if 1 / 2 < x - n then n + 1
  else if n % 2 = 0 then n else n + 1

/-- `%.0f` of package fmt: the exact decimal value, rounded. -/
def fixed0 (x : Rat) : List Char :=
  if x < 0 then '-' :: fmtInt (roundEven (-x)).toNat else fmtInt (roundEven x).toNat

/-- A number of tenths. -/
def tenths (n : Nat) : List Char := fmtInt (n / 10) ++ ['.', digitChar (n % 10)]

/-- `%.1f` of package fmt. -/
def fixed1 (x : Rat) : List Char :=
  if x < 0 then '-' :: tenths (roundEven (10 * -x)).toNat else tenths (roundEven (10 * x)).toNat

/-- The switch of `HumanizeFloat`, humanize.go:58-71. -/
def humanizeFloat' (div : Rat → Rat → Rat) (f : Rat) : List Char :=
  if f > 1000000 then ['1', 'M', '+']
  else if f > 10000 then fixed0 (div f 1000) ++ ['K']
  else if f > 1000 then fixed1 (div f 1000) ++ ['K']
  else if f ≥ 1 then fixed0 f
  else if f = 0 then ['0']
  else fixed1 f

/-- `HumanizeFloat`, humanize.go:52-72. -/
def humanizeFloat (div : Rat → Rat → Rat) (f : Rat) : List Char :=
  let s := humanizeFloat' div f
  if s = ['0', '.', '0'] then ['0'] else s

/-- `HumanizeBytes`, humanize.go:77-97, for less than 2⁵³ bytes: below, the conversion to float64 is exact, and so
is the division by a power of two. -/
def humanizeBytes (n : Nat) : List Char :=
  let kib : Rat := 1024
  let mib : Rat := 1024 * kib
  let fn : Rat := n
  if fn < 1 * kib then fixed1 fn ++ ['B']
  else if fn < 100 * kib then fixed1 (fn / kib) ++ ['K', 'B']
  else if fn < 1 * mib then fixed0 (fn / kib) ++ ['K', 'B']
  else if fn < 100 * mib then fixed1 (fn / mib) ++ ['M', 'B']
  else fixed0 (fn / mib) ++ ['M', 'B']

end Trc.Util
