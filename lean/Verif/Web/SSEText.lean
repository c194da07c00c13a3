import Verif.Web.StreamClient
import Verif.Cmd.Output

/-!
# The text of a stream (trcweb/trace_server.go:292-350, with the eventsource package)

The handler passes a type and the bytes of `json.Marshal` to `Encoder.Encode` of github.com/bernerdschaefer/eventsource, which is
not in the repository; this follows its source: a field is written as a line for each line of its value, and an empty line ends the
event.  IDs and retry times are not set by the handler.
-/

namespace Trc.Web

open Trc.Broker

/-- `bytes.Split(value, "\n")`. -/
def splitLines : List Char → List (List Char)
  | [] => [[]]
  | c :: r =>
    if c = '\n' then [] :: splitLines r
    else match splitLines r with
      | [] => [[c]]
      | l :: ls => (c :: l) :: ls

/-- `Encoder.WriteField`. -/
def writeField (name value : List Char) : List Char :=
  (splitLines value).flatMap fun line => name ++ ((if line = [] then [] else ':' :: ' ' :: line) ++ ['\n'])

/-- `Encoder.Encode`. -/
def encodeEvent (type data : List Char) : List Char :=
  (if type = [] then [] else writeField ['e', 'v', 'e', 'n', 't'] type) ++ (writeField ['d', 'a', 't', 'a'] data ++ ['\n'])

/-- The type of what the handler writes, trace_server.go:303, 324, 345. -/
def Out.kind : Out → List Char
  | .init _ _ => ['i', 'n', 'i', 't']
  | .stats _ => ['s', 't', 'a', 't', 's']
  | .trace _ => ['t', 'r', 'a', 'c', 'e']

/-- What is marshaled, trace_server.go:293-296, 317, 338; the keys of a map are sorted. -/
def Out.text (seconds : Duration → List Char) : Out → JText
  | .init f sendbuf => jtext (.obj (field "filter" (encFilter f) ++ field "sendbuf" (.num sendbuf)))
  | .stats st => jtext (encStreamStats st)
  | .trace x => Cmd.traceText seconds x

/-- What has been written to the connection. -/
def streamText (seconds : Duration → List Char) (l : List Out) : List Char :=
  l.flatMap fun o => encodeEvent o.kind (write compact 0 (o.text seconds))

end Trc.Web
