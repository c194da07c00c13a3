import Verif.Props.LetsGo
import Verif.Props.Memory

/-!
# C154, for whole programs
-/

namespace Trc.Heap

open Trc.Core Trc.Core.Spec

variable {W A : Type} [Sys W A]

/-- **C154** In every execution of a program, with any number of collectors, goroutines, and traces: the slots of the
array of a category of a collector are the traces that the category shows, each in one slot, and `nil`. -/
theorem C154_program (acts : List (Act W A)) (s : St W A) (h : (St.init : St W A).run acts = some s) (k : Nat)
    (rings : Ring.RBs Handle) (hk : s.rings[k]? = some rings) (c : String) (rb : Ring.RB Handle)
    (hc : rings.buf c = some rb) :
    ∃ items, rings.contents c = some items ∧
      rb.buf.Perm (items ++ List.replicate (rb.buf.length - items.length) default) := by
  obtain ⟨ops, ds, -, h1⟩ := (run_rings h).2 k rings hk
  rcases h1 with ⟨r, hr, -⟩ | ⟨-, size, -, h1⟩
  · simp [St.init] at hr
  · have hz : (if size ≤ 0 then 1000 else size) = (((if size ≤ 0 then 1000 else size) : Int).toNat : Int) := by
      split <;> omega
    rw [hz] at h1
    obtain ⟨s', ds', e, hs⟩ := Ring.C154_slots (α := Handle) _ ops
    rw [h1, Option.some.injEq, Prod.mk.injEq] at e
    obtain ⟨rfl, -⟩ := e
    exact hs c rb hc

/-- Three requests in a category of two: the slots have the last two. -/
example (env : Env Unit) : (St.init.run (.newCollector 2 :: requests env 0 ["a", "a", "b", "a"])).map
    (fun s : St Unit Nat => (s.rings[0]?.map fun r => ((r.buf "a").map fun b => b.buf.map Handle.cid, (r.buf "b").map fun b => b.buf.length)))
    = some (some (some [3, 1], some 2)) := by
  rfl

end Trc.Heap
