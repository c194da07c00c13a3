import Verif.Web.Util

/-!
# Model of `StreamClient` in `trcweb/trace_server.go`: its settings and its request

The reading loop is in `Verif/Web/StreamClient.lean`.  `HTTPClient` (set but never used by
`Stream`) and `OnRead` are in `Verif/Web/Using.lean`.
-/

namespace Trc.Web

/-- `type StreamClient`, trace_server.go:367-387, the settings. -/
structure StreamClient where
  uri : List Char
  sendBuffer : Int := 0
  retryInterval : Duration := 0
  statsInterval : Duration := 0
deriving DecidableEq

/-- The two blocks of `initialize` for the intervals, trace_server.go:408-422. -/
def forceInterval (v dflt min max : Int) : Int :=
  if v = 0 then dflt else if v < min then min else if v > max then max else v

/-- `strings.HasPrefix(s, "http")` -/
def hasHTTP (s : List Char) : Bool := ['h', 't', 't', 'p'].isPrefixOf s

/-- The URI block of `initialize`, trace_server.go:394-396. -/
def forceURI (uri : List Char) : List Char :=
  if uri ≠ [] ∧ hasHTTP uri = false then ['h', 't', 't', 'p', ':', '/', '/'] ++ uri else uri

/-- `initialize`, trace_server.go:389-423. -/
def StreamClient.initialize (c : StreamClient) : StreamClient :=
  { uri := forceURI c.uri
    sendBuffer := if c.sendBuffer < 0 then 0 else if c.sendBuffer > 100000 then 100000 else c.sendBuffer
    retryInterval := forceInterval c.retryInterval 3000000000 1000000000 60000000000
    statsInterval := forceInterval c.statsInterval 10000000000 1000000000 60000000000 }

/-- `strconv.Itoa` -/
def itoa (n : Int) : List Char := if n < 0 then '-' :: fmtInt n.natAbs else fmtInt n.natAbs

/-- The raw query of the request of `Stream`, trace_server.go:457-479, for a URI with query `raw`. -/
def StreamClient.query (c : StreamClient) (f : Filter) (raw : Bytes) : Bytes :=
  let q := parseQuery raw
  let q := q.setIf (c.sendBuffer > 0) (bytesOf "sendbuf") (bytesOf (String.ofList (itoa c.sendBuffer)))
  let q := q.setIf (c.statsInterval > 0) (bytesOf "stats") (bytesOf (String.ofList (durationString c.statsInterval)))
  encodeFilter f q.encode

/-- The same for `Stream`, which initializes the client first. -/
def StreamClient.stream (c : StreamClient) (f : Filter) (raw : Bytes) : Bytes := c.initialize.query f raw

end Trc.Web
