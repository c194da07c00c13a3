import Verif.Core.Model

/-!
# Model of `trace_static.go` and of `Frame` in `trace.go`

A `Static` is what the getters of a trace return: it models a `StaticTrace` and also the
readings that `Filter.Allow`, `SearchStats.Observe` and `NewSearchTrace` take from any other
`Trace`.  The fields `TraceDurationStr` and `TraceDurationSec`, which only repeat the
duration, are left out.

Go strings are sequences of bytes, here lists of characters; the only separators looked for are
ASCII and for valid UTF-8 the byte order is the order of code points.
-/

namespace Trc

open Core (Event Frame)

/-! ## `Frame.CompactFileLine` -/

/-- `strings.Cut(s, sep)` for a one-character separator, without the flag. -/
def cut (s : List Char) (sep : Char) : List Char × List Char :=
  (s.takeWhile (· != sep), (s.dropWhile (· != sep)).drop 1)

/-- `strings.LastIndex(s, sep)` for a one-character separator. -/
def lastIndex (s : List Char) (sep : Char) : Int :=
  match s.reverse.findIdx? (· == sep) with
  | none => -1
  | some i => (s.length : Int) - 1 - i

/-- `pkgPrefix`, trace.go:118-125. -/
def pkgPrefix (funcName : List Char) : List Char :=
  let end_ := lastIndex funcName '/'
  if end_ = -1 then [] else funcName.take end_.toNat

/-- `pathSuffix`, trace.go:127-134. -/
def pathSuffix (path : List Char) : List Char :=
  let lastSep := lastIndex path '/'
  if lastSep = -1 then path
  else path.drop (lastIndex (path.take lastSep.toNat) '/' + 1).toNat

/-- `Frame.CompactFileLine`, trace.go:107-116. -/
def compactFileLine (fr : Frame) : String :=
  let (file, line) := cut fr.fileLine.toList ':'
  let pre := pkgPrefix fr.function.toList
  let suf := pathSuffix file
  let file := if pre = [] then suf else pre ++ '/' :: suf
  String.ofList (file ++ ':' :: line)

/-! ## Static traces -/

/-- `type StaticTrace`, trace_static.go:8-19. -/
structure Static where
  source : String
  id : String
  category : String
  started : Time
  duration : Duration
  finished : Bool
  errored : Bool
  events : List Event
deriving DecidableEq, Repr, Inhabited

/-- One iteration of the loop of `TrimStacks`, trace_static.go:127-132. -/
def trimEvent (depth : Nat) (ev : Event) : Event :=
  if ev.stack.length > depth then { ev with stack := ev.stack.take depth } else ev

/-- `TrimStacks`, trace_static.go:120-134. -/
def Static.trimStacks (st : Static) (depth : Int) : Static :=
  if depth = 0 then st
  else
    let depth := if depth < 0 then 0 else depth
    { st with events := st.events.map (trimEvent depth.toNat) }

/-- `staticTracesNewestFirst.Less`, trace_static.go:146-159. -/
def Static.less (a b : Static) : Bool :=
  if a.started.after b.started then true
  else if a.started.before b.started then false
  else decide (b.id < a.id)

end Trc
