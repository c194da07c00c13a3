import Verif.Cmd.Flags
import Verif.Cmd.Watching
import Verif.Cmd.SearchLog

/-!
# What `trc stream` writes to its log as a whole (cmd/trc/stream.go:39-112, 183-208)

The program is that of `Verif/Cmd/Pipeline.lean`.  Of the lines about a URI, those of the reporter are taken to be written at any time
while it runs; when it writes them is in `Verif/Cmd/Watching.lean`.
-/

namespace Trc.Cmd

open Trc.Web

/-- The flags of `trc stream` with those of the filter, stream.go:19-37. -/
structure StreamConfig extends StreamFlags where
  filter : FilterFlags := {}

/-- What is written to the info log first, stream.go:45-62. -/
def StreamConfig.infoLines (c : StreamConfig) : List String :=
  ["streaming: " ++ (if c.streamEvents then "events" else "traces"), "filter: " ++ (c.filter.streamFilter c.streamEvents).string showDuration]

/-- What is written to the debug log first, stream.go:63-69. -/
def StreamConfig.debugLines (c : StreamConfig) : List String :=
  ["send buffer: " ++ showInt c.sendBuf, "recv buffer: " ++ showInt c.recvBuf, "stats interval: " ++ showDuration c.statsInterval,
    "retry interval: " ++ showDuration c.retryInterval, "starting streams"]

/-- The client for a URI, stream.go:153-160. -/
def StreamConfig.client (c : StreamConfig) (uri : String) : StreamClient :=
  { uri := uri.toList, sendBuffer := c.sendBuf, retryInterval := c.retryInterval, statsInterval := c.statsInterval }

/-- The raw query of the requests to a URI with query `raw`, stream.go:165. -/
def StreamConfig.asks (c : StreamConfig) (uri : String) (raw : Bytes) : Bytes :=
  (c.client uri).stream (c.filter.streamFilter c.streamEvents) raw

/-- The lines of the debug log after that. -/
inductive SLine where
  /-- `started streams`, stream.go:105 -/
  | started
  /-- `stopping streams...`, stream.go:107 -/
  | stopping
  /-- `streams finished`, stream.go:110 -/
  | finished
  /-- `emitted trace count %d`, stream.go:204 -/
  | emitted (count : Nat)
  /-- a line about a URI -/
  | uri (i : Nat) (l : WLine)
deriving DecidableEq

/-- The state: `started` is whether `runStreams` is past its loop; `count` is that of `writeTraces`, a `uint64`. -/
structure LSt where
  p : PSt := {}
  started : Bool := false
  count : Nat := 0
  log : List SLine := []

/-- How many `init` events have been read for a URI. -/
def RSt.inits (r : RSt) : Nat := (r.reads.filter fun ev => decide (ev.type = "init")).length

/-- What is written in a step of the goroutines for a URI, but for the reporter; stream.go:120-122 and see `lineOf`. -/
def uriLines (r r' : RSt) : List WLine :=
  (lineOf r r').toList ++ if r.inits < r'.inits then [.connected] else []

/-- What is written in a step, stream.go:106-110 and 203-205. -/
def stepLines (n count : Nat) (p p' : PSt) : List SLine :=
  (if p.spc = .running ∧ p'.spc = .waiting then [.stopping] else []) ++
  (if p.spc = .waiting ∧ p'.spc = .returned then [.finished] else []) ++
  (if p.wpc = .running ∧ p'.wpc = .returned then [.emitted count] else []) ++
  (List.range n).flatMap fun i => (uriLines (p.uris i) (p'.uris i)).map (.uri i)

section
variable (interval : Int) (n cap : Nat)

/-- The steps. -/
inductive LStep : LSt → LSt → Prop
  /-- stream.go:96-105: all the goroutines have been started -/
  | started {s} : s.started = false → LStep s { s with started := true, log := s.log ++ [.started] }
  /-- a step of the program; `count++`, stream.go:201 -/
  | goes {s p'} : PStep interval n cap s.p p' → (p'.spc = .waiting → s.started = true) →
      LStep s { s with
        p := p'
        count := if s.p.written.length < p'.written.length then (s.count + 1) % 18446744073709551616 else s.count
        log := s.log ++ stepLines n s.count s.p p' }
  /-- a reporter writes, stream.go:135-140 -/
  | reports {s i l} : i < n → (s.p.uris i).rep = .running → (l = .noData ∨ ∃ d, l = .silent d) →
      LStep s { s with log := s.log ++ [.uri i l] }

inductive LSteps : LSt → LSt → Prop
  | refl {s} : LSteps s s
  | snoc {s s' s''} : LSteps s s' → LStep interval n cap s' s'' → LSteps s s''

def LReach (s : LSt) : Prop := LSteps interval n cap {} s

end

end Trc.Cmd
