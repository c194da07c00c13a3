import Verif.Core.Model

/-!
# Specification of a core trace in terms of its call history

Nothing here looks at the fields of `CoreTrace`; a trace is specified by what was called.
-/

namespace Trc.Core.Spec

variable {W A : Type} [Sys W A]

/-- A logging call, with its circumstances. -/
structure Entry (W A : Type) where
  kind : LogKind
  format : String
  args : List A
  callers : List StdFrame
  env : Env W

/-- `Errorf` and `LazyErrorf` log error events. -/
def isErr : LogKind → Bool
  | .tracef => false | .lazyTracef => false | .errorf => true | .lazyErrorf => true

/-- `LazyTracef` and `LazyErrorf` format late. -/
def isLazy : LogKind → Bool
  | .tracef => false | .lazyTracef => true | .errorf => false | .lazyErrorf => true

/-- The calls before the first `Finish`. -/
def active : Hist W A → Hist W A
  | [] => []
  | (_, .finish) :: _ => []
  | p :: h => p :: active h

/-- The logging calls of a history. -/
def logs : Hist W A → List (Entry W A)
  | [] => []
  | (env, .log kind format args callers) :: h => { kind, format, args, callers, env } :: logs h
  | _ :: h => logs h

/-- The logging calls before the first `Finish`. -/
def logged (h : Hist W A) : List (Entry W A) := logs (active h)

/-- The time of the first `Finish`, if any. -/
def finishedAt : Hist W A → Option Time
  | [] => none
  | (env, .finish) :: _ => some env.now
  | _ :: h => finishedAt h

/-- The stack an event is to report: the captured frames, without the outermost one and
without trc's own logging functions. -/
def stackOf (nostack : Bool) (callers : List StdFrame) : List Frame :=
  if nostack then [] else
  ((callers.dropLast).filter fun fr => !ignoreStackFrameFunction fr.function).map toFrame

end Trc.Core.Spec

namespace Trc.Core

/-- The global setters. -/
inductive Setting where
  | maxEvents (n : Int)
  | stacks (enable : Bool)

/-- One setter call. -/
def Globals.apply (g : Globals) : Setting → Globals
  | .maxEvents n => g.setTraceMaxEvents n
  | .stacks b => g.setTraceStacks b

/-- The global settings after some calls of the setters, from program start. -/
def Globals.after (settings : List Setting) : Globals := settings.foldl Globals.apply {}

namespace Spec
variable {W A : Type}

/-- `n` forced into 10..10000. -/
def clamped (n : Int) : Int := max 10 (min 10000 n)

/-- The limits put in force by `SetMaxEvents` calls in a history. -/
def limitsSet : Hist W A → List Int
  | [] => []
  | (_, .setMaxEvents m) :: h => clamped m :: limitsSet h
  | _ :: h => limitsSet h

end Spec
end Trc.Core
