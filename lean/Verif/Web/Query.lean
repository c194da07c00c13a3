/-!
# `net/url.Values`

The standard library functions on query strings that `trcweb/util.go` uses (`net/url/url.go:
QueryEscape, QueryUnescape, Values.Get, Set, Add, Has, Encode, ParseQuery`), on bytes.

A `url.Values` maps keys to lists of values.  It is represented as a list of key/value pairs; the
values of a key are those of its pairs, in order.  A key with an empty list of values is not
represented: none of the functions used here creates one, and `Encode` would drop it.
-/

namespace Trc.Web

abbrev Bytes := List UInt8

/-- The bytes of a Go string. -/
def bytesOf (s : String) : Bytes := s.toByteArray.data.toList

/-- The string made of some bytes.  Go strings need not be valid UTF-8, `String`s are: other bytes
are read as the replacement character. -/
def text (b : Bytes) : String :=
  if h : ByteArray.IsValidUTF8 ⟨b.toArray⟩ then String.ofByteArray _ h else "�"

/-! ## Escaping -/

/-- The code of an ASCII character. -/
def ch (c : Char) : UInt8 := c.toNat.toUInt8

/-- `!shouldEscape(c, encodeQueryComponent)` -/
def unreserved (c : UInt8) : Bool :=
  (ch 'a' ≤ c && c ≤ ch 'z') || (ch 'A' ≤ c && c ≤ ch 'Z') || (ch '0' ≤ c && c ≤ ch '9') ||
    c == ch '-' || c == ch '_' || c == ch '.' || c == ch '~'

/-- `upperhex[n]` -/
def upperhex (n : UInt8) : UInt8 := if n < 10 then ch '0' + n else ch 'A' + (n - 10)

/-- `unhex`, with `ishex`. -/
def unhex (c : UInt8) : Option UInt8 :=
  if ch '0' ≤ c ∧ c ≤ ch '9' then some (c - ch '0')
  else if ch 'a' ≤ c ∧ c ≤ ch 'f' then some (c - ch 'a' + 10)
  else if ch 'A' ≤ c ∧ c ≤ ch 'F' then some (c - ch 'A' + 10)
  else none

/-- What `QueryEscape` writes for one byte. -/
def escapeByte (c : UInt8) : Bytes :=
  if c = ch ' ' then [ch '+']
  else if unreserved c then [c]
  else [ch '%', upperhex (c / 16), upperhex (c % 16)]

/-- `url.QueryEscape` -/
def escape (s : Bytes) : Bytes := s.flatMap escapeByte

/-- `url.QueryUnescape`; `none` is an error. -/
def unescape : Bytes → Option Bytes
  | [] => some []
  | c :: s =>
    if c = ch '%' then
      match s with
      | a :: b :: s => do
        let x ← unhex a
        let y ← unhex b
        let r ← unescape s
        return (x * 16 + y) :: r
      | _ => none
    else do
      let r ← unescape s
      return (if c = ch '+' then ch ' ' else c) :: r

/-! ## Values -/

abbrev Values := List (Bytes × Bytes)

/-- `v[key]` -/
def vals (key : Bytes) (v : Values) : List Bytes :=
  v.filterMap (fun p => if p.1 = key then some p.2 else none)

/-- `v.Get(key)` -/
def Values.get (v : Values) (key : Bytes) : Bytes := (vals key v).head?.getD []

/-- `v.Has(key)` -/
def Values.has (v : Values) (key : Bytes) : Bool := !(vals key v).isEmpty

/-- `v.Add(key, value)` -/
def Values.add (v : Values) (key value : Bytes) : Values := v ++ [(key, value)]

/-- `v.Set(key, value)` -/
def Values.set (v : Values) (key value : Bytes) : Values := v.filter (fun p => p.1 != key) ++ [(key, value)]

/-! ## Encode -/

/-- The order of strings. -/
def bytesLe : Bytes → Bytes → Bool
  | [], _ => true
  | _ :: _, [] => false
  | a :: s, b :: t => if a = b then bytesLe s t else decide (a < b)

/-- Insert a pair before the first pair whose key is not smaller. -/
def insertPair (p : Bytes × Bytes) : Values → Values
  | [] => [p]
  | q :: v => if bytesLe p.1 q.1 then p :: q :: v else q :: insertPair p v

/-- The pairs by key, as `Encode` goes through them. -/
def sortPairs (v : Values) : Values := v.foldr insertPair []

/-- One `key=value`. -/
def encodePair (p : Bytes × Bytes) : Bytes := escape p.1 ++ ch '=' :: escape p.2

/-- Pieces with `&` between them. -/
def joinAmp : List Bytes → Bytes
  | [] => []
  | [a] => a
  | a :: b :: l => a ++ ch '&' :: joinAmp (b :: l)

/-- `v.Encode()` -/
def Values.encode (v : Values) : Bytes := joinAmp ((sortPairs v).map encodePair)

/-! ## ParseQuery -/

/-- The pieces between the `&`s, as `strings.Cut` takes them off the front. -/
def pieces : Bytes → List Bytes
  | [] => [[]]
  | c :: s =>
    if c = ch '&' then [] :: pieces s
    else match pieces s with
      | [] => [[c]]
      | p :: ps => (c :: p) :: ps

/-- What `ParseQuery` does with a piece: the pair it adds, if any. -/
def parsePiece (p : Bytes) : Option (Bytes × Bytes) :=
  if ch ';' ∈ p then none
  else if p = [] then none
  else do
    let key ← unescape (p.takeWhile (· != ch '='))
    let value ← unescape ((p.dropWhile (· != ch '=')).drop 1)
    return (key, value)

/-- `u.Query()`: `ParseQuery` ignoring the error. -/
def parseQuery (raw : Bytes) : Values := (pieces raw).filterMap parsePiece

end Trc.Web
