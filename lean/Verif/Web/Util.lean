import Verif.Search.Request
import Verif.Web.Duration
import Verif.Web.Query

/-!
# Model of `trcweb/util.go`

Requests are given by the bytes of their raw query.  `mulFrac` is the floating point product inside
`time.ParseDuration`, see `Verif/Web/Duration.lean`.
-/

namespace Trc.Web

/-- `q.Set(key, value)` under a condition. -/
def Values.setIf (v : Values) (c : Prop) [Decidable c] (key value : Bytes) : Values :=
  if c then v.set key value else v

/-- The loops of `encodeFilter` that add a list of values, util.go:15-20. -/
def Values.addAll (v : Values) (key : Bytes) : List Bytes → Values
  | [] => v
  | x :: l => Values.addAll (v.add key x) key l

/-- `if f.MinDuration != nil`, util.go:30-32. -/
def Values.setDuration (v : Values) (key : Bytes) : Option Duration → Values
  | none => v
  | some d => v.set key (bytesOf (String.ofList (durationString d)))

/-- The parameters that carry a filter. -/
def keySource := bytesOf "source"
def keyID := bytesOf "id"
def keyCategory := bytesOf "category"
def keyActive := bytesOf "active"
def keyFinished := bytesOf "finished"
def keyMin := bytesOf "min"
def keySuccess := bytesOf "success"
def keyErrored := bytesOf "errored"
def keyQuery := bytesOf "q"
def bytesTrue := bytesOf "true"

/-- `encodeFilter`, util.go:13-43, without reading and writing the URL. -/
def filterValues (f : Filter) (q : Values) : Values :=
  let q := q.addAll keySource (f.sources.map bytesOf)
  let q := q.addAll keyID (f.ids.map bytesOf)
  let q := q.setIf (f.category ≠ "") keyCategory (bytesOf f.category)
  let q := q.setIf (f.isActive = true) keyActive bytesTrue
  let q := q.setIf (f.isFinished = true) keyFinished bytesTrue
  let q := q.setDuration keyMin f.minDuration
  let q := q.setIf (f.isSuccess = true) keySuccess bytesTrue
  let q := q.setIf (f.isErrored = true) keyErrored bytesTrue
  q.setIf (f.query ≠ "") keyQuery (bytesOf f.query)

/-- `encodeFilter`, util.go:13-43: the raw query afterwards. -/
def encodeFilter (f : Filter) (raw : Bytes) : Bytes := (filterValues f (parseQuery raw)).encode

/-- `parseDefault`, util.go:60-65. -/
def parseDefault {T : Type} (s : Bytes) (parse : Bytes → Option T) (dflt : T) : T :=
  match parse s with
  | some v => v
  | none => dflt

/-- `parseRange`, util.go:67-79. -/
def parseRange (s : Bytes) (parse : Bytes → Option Int) (min dflt max : Int) : Int :=
  match parse s with
  | none => dflt
  | some v => if v < min then min else if v > max then max else v

/-- `time.ParseDuration` on the bytes of a string. -/
def parseDurationBytes (mulFrac : Nat → Nat → Nat → Nat) (s : Bytes) : Option Duration :=
  parseDuration mulFrac (text s).toList

/-- `parseDurationPointer`, util.go:81-87. -/
def parseDurationPointer (mulFrac : Nat → Nat → Nat → Nat) (s : Bytes) : Option (Option Duration) :=
  match parseDurationBytes mulFrac s with
  | none => none
  | some d => some (some d)

/-- `parseFilter`, util.go:45-58. -/
def parseFilter (mulFrac : Nat → Nat → Nat → Nat) (raw : Bytes) : Filter :=
  let q := parseQuery raw
  { sources := (vals keySource q).map text
    ids := (vals keyID q).map text
    category := text (q.get keyCategory)
    isActive := q.has keyActive
    isFinished := q.has keyFinished
    minDuration := parseDefault (q.get keyMin) (parseDurationPointer mulFrac) none
    isSuccess := q.has keySuccess
    isErrored := q.has keyErrored
    query := text (q.get keyQuery)
    regexp := none }

/-- The digits of `strconv.Atoi`. -/
def atoiDigits (ds : List Char) : Nat := ds.foldl (fun x c => x * 10 + digitVal c) 0

/-- `strconv.Atoi`, without the sign. -/
def atoiAbs (neg : Bool) (ds : List Char) : Option Int :=
  if ds = [] then none
  else if ds.all isDigit = false then none
  else if neg then (if atoiDigits ds > two63 then none else some (-(atoiDigits ds : Int)))
  else (if atoiDigits ds > two63 - 1 then none else some (atoiDigits ds : Int))

/-- `strconv.Atoi`; `none` is an error. -/
def atoi (s : List Char) : Option Int := atoiAbs (parseSign s).1 (parseSign s).2

/-- `strconv.Atoi` on the bytes of a string. -/
def atoiBytes (s : Bytes) : Option Int := atoi (text s).toList

/-- `parseBucketing`, util.go:89-114. -/
def parseBucketing (mulFrac : Nat → Nat → Nat → Nat) (bs : List Bytes) : List Duration :=
  if (bs.length : Int) ≤ 0 then []
  else
    let ds := bs.filterMap (parseDurationBytes mulFrac)
    let ds := sortDurations ds
    match ds with
    | [] => []
    | d :: _ => if d ≠ 0 then 0 :: ds else ds

/-- The request that `handleSearch` reads from a URL, trace_server.go:125-132. -/
def requestOfURL (mulFrac : Nat → Nat → Nat → Nat) (raw : Bytes) : SearchRequest :=
  let q := parseQuery raw
  { bucketing := parseBucketing mulFrac (vals (bytesOf "b") q)
    filter := parseFilter mulFrac raw
    limit := parseRange (q.get (bytesOf "n")) atoiBytes searchLimitMin searchLimitDefault searchLimitMax
    stackDepth := parseDefault (q.get (bytesOf "stack")) atoiBytes 0 }

/-- The stats interval that `handleStream` reads, trace_server.go:260. -/
def statsOfURL (mulFrac : Nat → Nat → Nat → Nat) (raw : Bytes) : Duration :=
  parseDefault ((parseQuery raw).get (bytesOf "stats")) (parseDurationBytes mulFrac) 10000000000

/-- The send buffer that `handleStream` reads, trace_server.go:261. -/
def sendbufOfURL (raw : Bytes) : Int :=
  parseRange ((parseQuery raw).get (bytesOf "sendbuf")) atoiBytes 0 100 100000

end Trc.Web
