import Verif.Search.Static

/-!
# Model of `filter.go`

`regexp.Compile` is an arbitrary function to a matcher or an error text; a compiled expression
is its matcher.
-/

namespace Trc

open Core (Event Frame)

/-- A compiled regular expression: `MatchString`. -/
abbrev Matcher := String → Bool

/-- `regexp.Compile` -/
abbrev Compile := String → Except String Matcher

/-- `type Filter`, filter.go:12-23. -/
structure Filter where
  sources : List String := []
  ids : List String := []
  category : String := ""
  isActive : Bool := false
  isFinished : Bool := false
  minDuration : Option Duration := none
  isSuccess : Bool := false
  isErrored : Bool := false
  query : String := ""
  regexp : Option Matcher := none

/-- `initializeQueryRegexp`, filter.go:172-190: the filter afterwards, and the error. -/
def Filter.initializeQueryRegexp (compile : Compile) (f : Filter) : Filter × Option String :=
  if f.regexp.isSome then (f, none)
  else if f.query = "" then (f, none)
  else match compile f.query with
    | .error e => ({ f with query := "" }, some ("invalid, ignoring (" ++ e ++ ")"))
    | .ok re => ({ f with regexp := some re }, none)

/-- `Normalize`, filter.go:26-34. -/
def Filter.normalize (compile : Compile) (f : Filter) : Filter × List String :=
  let (f', err) := f.initializeQueryRegexp compile
  (f', err.toList.map ("query: " ++ ·))

/-- The inner loop of `Allow`, filter.go:157-164. -/
def matchStack (re : Matcher) : List Frame → Bool
  | [] => false
  | c :: cs => if re c.function then true else if re (compactFileLine c) then true else matchStack re cs

/-- The loop of `Allow`, filter.go:153-166. -/
def matchEvents (re : Matcher) : List Event → Bool
  | [] => false
  | ev :: evs => if re ev.what then true else if matchStack re ev.stack then true else matchEvents re evs

/-- The last part of `Allow`, filter.go:151-169. -/
def Filter.allowQuery (compile : Compile) (f : Filter) (tr : Static) : Bool × Filter :=
  let f' := (f.initializeQueryRegexp compile).1
  match f'.regexp with
  | some re => (matchEvents re tr.events, f')
  | none => (true, f')

/-- The loops of `Allow` that look for a value, filter.go:87-93, 100-106. -/
def foundIn (x : String) : List String → Bool
  | [] => false
  | y :: ys => if y = x then true else foundIn x ys

/-- The duration condition of `Allow` rejects the trace, filter.go:130-137. -/
def Filter.tooShort (f : Filter) (tr : Static) : Bool :=
  match f.minDuration with
  | none => false
  | some d => if !tr.finished then true else decide (tr.duration < d)

/-- `Allow`, filter.go:85-170: the answer, and the filter afterwards. -/
def Filter.allow (compile : Compile) (f : Filter) (tr : Static) : Bool × Filter :=
  if f.sources.length > 0 ∧ foundIn tr.source f.sources = false then (false, f)
  else if f.ids.length > 0 ∧ foundIn tr.id f.ids = false then (false, f)
  else if f.category ≠ "" ∧ tr.category ≠ f.category then (false, f)
  else if f.isActive ∧ tr.finished then (false, f)
  else if f.isFinished ∧ ¬ tr.finished then (false, f)
  else if f.tooShort tr then (false, f)
  else if f.isSuccess ∧ tr.errored then (false, f)
  else if f.isErrored ∧ ¬ tr.errored then (false, f)
  else f.allowQuery compile tr

/-- `strings.Join` -/
def join (sep : String) : List String → String
  | [] => ""
  | [x] => x
  | x :: y :: l => x ++ sep ++ join sep (y :: l)

/-- `fmt.Sprintf("%v", l)` for a slice of strings. -/
def sprintStrings (l : List String) : String := "[" ++ join " " l ++ "]"

/-- The elements collected by `String`, filter.go:38-74. `showDuration` is `Duration.String`. -/
def Filter.elems (showDuration : Duration → String) (f : Filter) : List String :=
  (if f.sources.length > 0 then ["Sources=" ++ sprintStrings f.sources] else []) ++
  (if f.ids.length > 0 then ["IDs=" ++ sprintStrings f.sources] else []) ++
  (if f.category ≠ "" then ["Category='" ++ f.category ++ "'"] else []) ++
  (if f.isActive then ["IsActive"] else []) ++
  (if f.isFinished then ["IsFinished"] else []) ++
  (match f.minDuration with
    | some d => ["MinDuration=" ++ showDuration d]
    | none => []) ++
  (if f.isSuccess then ["IsSuccess"] else []) ++
  (if f.isErrored then ["IsErrored"] else []) ++
  (if f.query ≠ "" then ["Query='" ++ f.query ++ "'"] else [])

/-- `String`, filter.go:37-81. -/
def Filter.string (showDuration : Duration → String) (f : Filter) : String :=
  if (f.elems showDuration).length ≤ 0 then "(allow all)" else join " " (f.elems showDuration)

end Trc
