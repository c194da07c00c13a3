import Verif.Cmd.Search
import Verif.Wrap.Model

/-!
# The URIs given to `trc` (cmd/trc/main.go)

`url.ParseRequestURI` and `URL.String` are modelled for URLs whose path needs no percent-encoding; user
information is part of the host; which authorities, paths and queries are well-formed is a parameter, and so is the
encoding of the path given by `--uri-path`.  `ffval.NewUniqueList` is modelled after its documentation: a
value that is in the list already is not added again.
-/

namespace Trc.Cmd

open Wrap (trimSpace)

/-- The values of a repeated flag of `ffval.NewUniqueList`, trc.go:40, given the values on the command line. -/
def uniqueList (given : List String) : List String :=
  given.foldl (fun l s => if s ∈ l then l else l ++ [s]) []

/-- `url.URL`: what of it is used.  `query` is what follows the first question mark, `RawQuery` and `ForceQuery`. -/
structure URL where
  scheme : List Char := []
  opaq : List Char := []
  host : List Char := []
  omitHost : Bool := false
  path : List Char := []
  query : Option (List Char) := none
  deriving DecidableEq

/-- What the model leaves open of net/url: the checks of the parts of a URL, and how a path is encoded. -/
structure Net where
  valid : URL → Bool
  encode : List Char → List Char

def isLetter (c : Char) : Bool := (97 ≤ c.toNat && c.toNat ≤ 122) || (65 ≤ c.toNat && c.toNat ≤ 90)

/-- The characters that may follow the first letter of a scheme. -/
def isSchemeChar (c : Char) : Bool := (48 ≤ c.toNat && c.toNat ≤ 57) || c == '+' || c == '-' || c == '.'

/-- The loop of `getScheme` of net/url: the characters passed, what follows the colon; `none` if there is no
scheme. -/
def getSchemeFrom (acc : List Char) : List Char → Option (List Char × List Char)
  | [] => none
  | c :: r =>
    if isLetter c then getSchemeFrom (acc ++ [c]) r
    else if isSchemeChar c then if acc = [] then none else getSchemeFrom (acc ++ [c]) r
    else if c = ':' then some (acc, r)
    else none

/-- `strings.ToLower` on a scheme. -/
def lower (c : Char) : Char := if 65 ≤ c.toNat && c.toNat ≤ 90 then Char.ofNat (c.toNat + 32) else c

/-- `strings.Cut` at the first question mark. -/
def cutQuery (s : List Char) : List Char × Option (List Char) :=
  (s.takeWhile (· ≠ '?'), (s.dropWhile (· ≠ '?')).tail?)

/-- `url.ParseRequestURI`; `none` if it fails. -/
def Net.parse (net : Net) (raw : List Char) : Option URL :=
  if raw.any (fun c => c.toNat < 32 || c.toNat = 127) || raw = [] then none else
  if raw = ['*'] then some { path := ['*'] } else
  let (scheme, rest, ok) :=
    match getSchemeFrom [] raw with
    | some ([], _) => ([], raw, false) -- "missing protocol scheme"
    | some (s, r) => (s.map lower, r, true)
    | none => ([], raw, true)
  if ok = false then none else
  let (rest, query) := cutQuery rest
  match rest with
  | '/' :: '/' :: r =>
    let u : URL :=
      if scheme = [] then { path := rest, query }
      else { scheme, host := r.takeWhile (· ≠ '/'), path := r.dropWhile (· ≠ '/'), query }
    if net.valid u then some u else none
  | '/' :: _ =>
    let u : URL := { scheme, omitHost := scheme ≠ [], path := rest, query }
    if net.valid u then some u else none
  | _ => if scheme = [] then none else some { scheme, opaq := rest, query } -- or "invalid URI for request"

/-- `URL.String` -/
def URL.str (u : URL) : List Char :=
  (if u.scheme = [] then [] else u.scheme ++ [':']) ++
  (if u.opaq ≠ [] then u.opaq
   else
    (if (u.scheme ≠ [] ∨ u.host ≠ []) ∧ ¬ (u.omitHost ∧ u.host = []) then if u.host ≠ [] ∨ u.path ≠ [] then '/' :: '/' :: u.host else [] else []) ++
    (if u.path ≠ [] ∧ u.path.head? ≠ some '/' ∧ u.host ≠ [] then '/' :: u.path else u.path)) ++
  (match u.query with
   | some q => '?' :: q
   | none => [])

/-- main.go:134-136 -/
def withScheme (uri : String) : String := if "http".toList.isPrefixOf uri.toList then uri else "http://" ++ uri

/-- The body of the loop over the URIs, main.go:128-151: what becomes of a URI. -/
def Net.target (net : Net) (uriPath : String) (given : String) : Except String String :=
  let uri := trimSpace given
  if uri = "" then .ok given else
  match net.parse (withScheme uri).toList with
  | none => .error (withScheme uri ++ ": invalid")
  | some u =>
    let u := if uriPath ≠ "" then { u with path := net.encode uriPath.toList } else u
    .ok (String.ofList u.str)

/-- The loop, main.go:128-151. -/
def Net.targets (net : Net) (uriPath : String) : List String → Except String (List String)
  | [] => .ok []
  | s :: r => do
    let t ← net.target uriPath s
    let ts ← net.targets uriPath r
    return t :: ts

/-- The URIs that the commands use, main.go:124-151, given the values of `--uri` on the command line. -/
def Net.prepare (net : Net) (uriPath : String) (given : List String) : Except String (List String) :=
  if (uniqueList given).length ≤ 0 then .error "at least one URI is required"
  else net.targets uriPath (uniqueList given)

/-- `exec` with `trc search`, main.go:124-177 and search.go:48-97: `internet` is what a URI stands for.  The
answers arrive in the order of `arrive`. -/
def searchCommand (net : Net) (internet : String → Remote) (arrive : List String → List String)
    (compile : Compile) (srt : List Static → List Static) (c : SearchFlags) (uriPath : String) (given : List String) :
    Except String (Option Printed) := do
  let uris ← net.prepare uriPath given
  return searchExec compile srt c ((arrive uris).map internet)

end Trc.Cmd
