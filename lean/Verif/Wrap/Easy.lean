import Verif.Wrap.Model

/-!
# Model of `eztrc/easy.go`

The package has one collector, `trc.NewDefaultCollector()`, and functions that call those of package
`trc`.  `Region`, `Prefix`, `Get`, `MaybeGet` only pass their arguments on: they are `region`,
`prefixed`, `get` and `maybeGet` of `Verif/Wrap/Model.lean`.
-/

namespace Trc.Wrap

open Core

variable {A : Type} [Arg A]

/-- The stack frame of a function of package `eztrc` (file and line left out). -/
def ezFrame (name : String) : StdFrame := ⟨"github.com/peterbourgon/trc/eztrc." ++ name, "", 0⟩

/-- `New`, eztrc/easy.go:53-55: `collector.NewTrace(ctx, category)`; `ds` are the decorators of the
collector and `source` its source. -/
def ezNew (ctx : Ctx A) (addr : Nat) (id source category : String) (ds : List (Decorator A)) (stack : List StdFrame) :
    Ctx A × Tr A × List (Act A) :=
  newTrace ctx addr id source category ds (⟨"github.com/peterbourgon/trc.(*Collector).NewTrace", "", 0⟩ :: ezFrame "New" :: stack)

/-- `Tracef`, `LazyTracef`, `Errorf`, `LazyErrorf`, eztrc/easy.go:79-99: `trc.Get(ctx)` and the method. -/
def ezLog (ctx : Ctx A) (orphan : Nat) (kind : LogKind) (format : String) (args : List A) (stack : List StdFrame) : List (Act A) :=
  let p := get ctx orphan
  p.2 ++ p.1.logActs kind format args (ezFrame (LogKind.name kind) :: stack)

end Trc.Wrap
