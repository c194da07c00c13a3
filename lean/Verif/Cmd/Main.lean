import Verif.Cmd.Uris

/-!
# The program `trc`: errors, help and the exit status (cmd/trc/main.go)

What the ff package makes of the arguments is a parameter: the values of the flags, and the command, if the first argument that is
not a flag names one; or an error.  What is written to standard error is help, an error, and the log; what is written to standard
output is in `Verif/Cmd/Search.lean` and `Verif/Cmd/Pipeline.lean`.
-/

namespace Trc.Cmd

/-- What `errors.Is` and `errors.As` find in an error, main.go:31 and 91; wrapping with `%w` keeps it. -/
inductive ErrKind where
  /-- `ff.ErrHelp` -/
  | help
  /-- `ff.ErrNoExec` -/
  | noExec
  /-- `context.Canceled` -/
  | canceled
  /-- `run.SignalError` -/
  | signal
  | other
deriving DecidableEq

structure Err where
  kind : ErrKind := .other
  msg : String
deriving DecidableEq

/-- The commands, main.go:56-86; `none` is `trc` itself, which has no `Exec`. -/
inductive Command where
  | none
  | search
  | stream
deriving DecidableEq

/-- The arguments as the ff package has parsed them. -/
structure Parsed where
  command : Command
  logLevel : String := "info"
  uriPath : String := ""
  uris : List String := []

/-- What is logged to standard error: `info`, `debug`, `trace`; main.go:106-117. -/
def logging : String → Option (Bool × Bool × Bool)
  | "n" => some (false, false, false)
  | "none" => some (false, false, false)
  | "i" => some (true, false, false)
  | "info" => some (true, false, false)
  | "d" => some (true, true, false)
  | "debug" => some (true, true, false)
  | "t" => some (true, true, true)
  | "trace" => some (true, true, true)
  | _ => none

/-- The values of `--log` that the ff package lets pass, trc.go:42. -/
def logLevels : List String := ["info", "i", "debug", "d", "trace", "t", "none", "n"]

/-- What `exec` does up to running the command, main.go:98-172: the command and its URIs, or an error. -/
def setUp (net : Net) (parse : Except Err Parsed) : Except Err (Command × List String) :=
  match parse with
  | .error e => .error e
  | .ok p =>
    match logging p.logLevel with
    | none => .error { msg := "invalid log level " ++ p.logLevel }
    | some _ =>
      match net.prepare p.uriPath p.uris with
      | .error e => .error { msg := e }
      | .ok uris => .ok (p.command, uris)

/-- What comes of `Exec` of a command: its error, or a panic. -/
abbrev Ran := Option (Option Err)

/-- `trcCommand.Run(ctx)`, main.go:177: the ff package runs the command, if it has an `Exec`. -/
def runCommand (search stream : List String → Ran) (uris : List String) : Command → Ran
  | .none => some (some { kind := .noExec, msg := "no execution function" })
  | .search => search uris
  | .stream => stream uris

/-- What comes of a call of `trc`: whether a command was run, and with which URIs, whether help is printed, the error that is printed,
and the exit status. -/
structure Exit where
  ran : Option (Command × List String) := none
  help : Bool
  error : Option String
  status : Nat
deriving DecidableEq

/-- `exec`, main.go:39-178, as the deferred function leaves it: whether help is printed, and the error. -/
def afterwards (showHelp : Bool) (err : Option Err) : Bool × Option Err :=
  let errHelp : Bool := match err with
    | some e => e.kind = .help ∨ e.kind = .noExec
    | none => false
  (showHelp || errHelp, if errHelp then none else err)

/-- `main`, main.go:21-37. -/
def exitStatus : Option Err → Option String × Nat
  | none => (none, 0)
  | some e => if e.kind = .canceled ∨ e.kind = .signal then (none, 0) else (some e.msg, 1)

/-- The program; a panic ends it with status 2. -/
def program (net : Net) (search stream : List String → Ran) (parse : Except Err Parsed) : Exit :=
  match setUp net parse with
  | .error e =>
    let (help, err) := afterwards true (some e)
    { help := help, error := (exitStatus err).1, status := (exitStatus err).2 }
  | .ok (c, uris) =>
    let ran := if c = .none then none else some (c, uris)
    match runCommand search stream uris c with
    | none => { ran, help := false, error := none, status := 2 }
    | some err =>
      let (help, err) := afterwards false err
      { ran, help := help, error := (exitStatus err).1, status := (exitStatus err).2 }

/-- `searchConfig.Exec`, search.go:48-97, which prints as `searchExec` says: its error is that of the encoder, which is that of standard
output (`write`); that of `Search` is nil. -/
def searchRan (write : Printed → Option String) (printed : Option Printed) : Ran :=
  printed.map fun p => (write p).map fun e => { msg := "marshal response: " ++ e }

end Trc.Cmd
