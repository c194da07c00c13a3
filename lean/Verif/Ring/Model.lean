import Verif.Go

/-!
# Model of `internal/trcringbuf/ringbuffer.go`: `RingBuffer`

`none` is a Go panic.  Go `int` is `Int`.  The mutex is not part of this file: each
method body runs entirely under `rb.mtx` (see `Verif/Mutex` for what that gives).
-/

namespace Trc.Ring

/-- `type RingBuffer[T any]`, ringbuffer.go:8-13 (without the mutex). -/
structure RB (α : Type) where
  /-- fully allocated at construction -/
  buf : List α
  /-- index for next write -/
  cur : Int
  /-- count of actual values -/
  len : Int

variable {α : Type} [Inhabited α]

/-- `NewRingBuffer`, ringbuffer.go:17-21. -/
def newRB (cap : Int) : Option (RB α) := do
  let buf ← Go.make cap
  return { buf, cur := 0, len := 0 }

/-- The copy loop of `Resize`, ringbuffer.go:54-63.  The first argument is
`wrcur + 1`, so the loop runs while it is positive. -/
def copyLoop (old : List α) : Nat → Int → List α → Option (List α × Int)
  | 0, rdcur, buf => some (buf, rdcur)
  | w + 1, rdcur, buf => do
    let x ← Go.get old rdcur
    let buf ← Go.set buf (w : Int) x
    let rdcur := rdcur - 1
    let rdcur := if rdcur < 0 then rdcur + old.length else rdcur
    copyLoop old w rdcur buf

/-- The dropped-values loop of `Resize`, ringbuffer.go:67-74.  The first argument
is the number of remaining iterations, `rb.len - i`. -/
def dropLoop (old : List α) : Nat → Int → List α → Option (List α)
  | 0, _, dropped => some dropped
  | n + 1, rdcur, dropped => do
    let x ← Go.get old rdcur
    let dropped := dropped ++ [x]
    let rdcur := rdcur - 1
    let rdcur := if rdcur < 0 then rdcur + old.length else rdcur
    dropLoop old n rdcur dropped

/-- `(*RingBuffer).Resize`, ringbuffer.go:26-90. Returns the new buffer and the
dropped values. -/
def resize (rb : RB α) (cap : Int) : Option (RB α × List α) :=
  if cap ≤ 0 then some (rb, []) else do
    let fill := if rb.len > cap then cap else rb.len
    let rdcur := rb.cur - 1
    let rdcur := if rdcur < 0 then rdcur + rb.len else rdcur
    let buf ← Go.make cap
    let (buf, rdcur) ← copyLoop rb.buf fill.toNat rdcur buf
    let dropped ← dropLoop rb.buf (rb.len - cap).toNat rdcur []
    let cur := fill
    let cur := if cur ≥ cap then cur - cap else cur
    return ({ buf, cur, len := fill }, dropped)

/-- Capturing the overwritten value in `Add`, ringbuffer.go:105-108. -/
def overwritten (rb : RB α) : Option (Option α) :=
  if rb.len ≥ rb.buf.length then (Go.get rb.buf rb.cur).map some else some none

/-- `(*RingBuffer).Add`, ringbuffer.go:95-126.  The result pair `(dropped, ok)` is
an `Option`; `cap(rb.buf) = len(rb.buf)` because `buf` always comes from `make`. -/
def add (rb : RB α) (val : α) : Option (RB α × Option α) :=
  if (rb.buf.length : Int) ≤ 0 then some (rb, none) else do
    let dropped ← overwritten rb
    let buf ← Go.set rb.buf rb.cur val
    let len := if rb.len < buf.length then rb.len + 1 else rb.len
    let cur := rb.cur + 1
    let cur := if cur ≥ buf.length then cur - buf.length else cur
    return ({ buf, cur, len }, dropped)

/-- The loop of `Walk`, ringbuffer.go:136-149: `k` remaining iterations, loop
variable `i`.  The callback `fn` threads an arbitrary state `σ` and may return an
error. -/
def walkLoop {σ ε : Type} (rb : RB α) (fn : σ → α → σ × Option ε) :
    Nat → Nat → σ → Option (σ × Option ε)
  | 0, _, s => some (s, none)
  | k + 1, i, s => do
    let cur := rb.cur - 1 - i
    let cur := if cur < 0 then cur + rb.buf.length else cur
    let x ← Go.get rb.buf cur
    match fn s x with
    | (s', some e) => some (s', some e)
    | (s', none) => walkLoop rb fn k (i + 1) s'

/-- `(*RingBuffer).Walk`, ringbuffer.go:131-152. -/
def walk {σ ε : Type} (rb : RB α) (fn : σ → α → σ × Option ε) (s : σ) :
    Option (σ × Option ε) :=
  walkLoop rb fn rb.len.toNat 0 s

/-- `(*RingBuffer).Stats`, ringbuffer.go:156-180. -/
def stats (rb : RB α) : Option (α × α × Int) :=
  if rb.len = 0 then some (default, default, 0) else do
    let headidx := rb.cur - 1
    let headidx := if headidx < 0 then headidx + rb.buf.length else headidx
    let tailidx := headidx - rb.len + 1
    let tailidx := if tailidx < 0 then tailidx + rb.buf.length else tailidx
    let h ← Go.get rb.buf headidx
    let t ← Go.get rb.buf tailidx
    return (h, t, rb.len)

/-- A mutating call on a ring buffer. -/
inductive Op (α : Type) where
  | add (val : α)
  | resize (cap : Int)

/-- One mutating call; the output is the list of values handed back as dropped. -/
def step (rb : RB α) : Op α → Option (RB α × List α)
  | .add v => do
    let (rb', d) ← add rb v
    return (rb', d.toList)
  | .resize c => resize rb c

/-- A history of calls; the output is the list of dropped values of each call. -/
def run (rb : RB α) : List (Op α) → Option (RB α × List (List α))
  | [] => some (rb, [])
  | op :: ops => do
    let (rb₁, d) ← step rb op
    let (rb₂, ds) ← run rb₁ ops
    return (rb₂, d :: ds)

/-- A fresh buffer of capacity `cap` after a history of calls. -/
def exec (cap : Int) (ops : List (Op α)) : Option (RB α × List (List α)) := do
  let rb ← newRB cap
  run rb ops

/-- What a caller sees by walking with a callback that collects every value. -/
def walkAll (rb : RB α) : Option (List α) :=
  (walk rb (fun (acc : List α) x => (acc ++ [x], (none : Option Unit))) []).map Prod.fst

end Trc.Ring
