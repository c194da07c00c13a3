import Verif.Props.Output
import Verif.Props.Rates
import Verif.Props.Filter
import Verif.Props.Client

/-!
# Statements in figures, and for cases that others leave out
-/

namespace Trc

/-- **C35** The buckets of a request that asks for none, in nanoseconds: 0, 100µs, 1ms, 5ms, 10ms, 25ms, 50ms, 100ms and 1s. -/
theorem C35_default_buckets (compile : Compile) (req : SearchRequest) (h : req.bucketing = []) :
    ∃ req' problems, req.normalize compile = some (req', problems) ∧
      req'.bucketing = [0, 100000, 1000000, 5000000, 10000000, 25000000, 50000000, 100000000, 1000000000] := by
  have hb : normalizeBucketing [] = some [0, 100000, 1000000, 5000000, 10000000, 25000000, 50000000, 100000000, 1000000000] := by decide +kernel
  exact ⟨_, _, by unfold SearchRequest.normalize; rw [h, hb]; rfl, rfl⟩

example : ∃ req : SearchRequest, req.bucketing = [] ∧ req.limit = 7 := ⟨{ limit := 7 }, rfl, rfl⟩

/-- **C79** A category that only one of the sources has keeps its rates when the statistics are merged, whenever it is asked for them. -/
theorem C79_new_category (theirs merged : Rated) (k : MergeClocks) (h : mergeRated none theirs k = some merged) (now : Time) :
    (merged.traceRate now).1 = (theirs.traceRate now).1 ∧ (merged.eventRate now).1 = (theirs.eventRate now).1 ∧ merged.cs = theirs.cs := by
  obtain rfl := Option.some.inj h
  exact ⟨rfl, rfl, rfl⟩

/-- A rate that was computed before is kept: two per second. -/
example : ∃ theirs merged : Rated, mergeRated none theirs rateNow = some merged ∧ (merged.traceRate rateNow.t₁).1 = 2 :=
  ⟨⟨⟨"api", 0, 0, [1], 0, ⟨10000000000, none⟩, ⟨10000000000, none⟩⟩, 2, 0⟩, _, rfl, by decide +kernel⟩

end Trc

namespace Trc.Cmd

open Web

/-- **C126** What `trc search` prints is read as what it has to print: the sources, the counts, the problems, the traces, and if they were asked
for, the request and the statistics. -/
theorem C126_printed (o : Output) (p : Printed) (took : Duration) (ht : ∀ st ∈ p.traces, OrdinaryTrace st)
    (hs : ∀ ss, p.stats = some ss → OrdinaryStats ss) :
    ∃ r, unmarshalText replyTy decReply (searchOutput o (p.reply took)) = some r ∧ r.sources = p.sources ∧ r.totalCount = p.totalCount ∧
      r.matchCount = p.matchCount ∧ r.problems = p.problems ∧ r.traces = p.traces.map wireStatic ∧ r.request = p.request.map wireRequest ∧
      r.stats = p.stats.map wireStats ∧ r.duration = took :=
  ⟨_, C126_search o (p.reply took) ⟨ht, hs⟩, rfl, rfl, rfl, rfl, rfl, rfl, rfl, rfl⟩

example : ∃ p : Printed, (∀ st ∈ p.traces, OrdinaryTrace st) ∧ (∀ ss, p.stats = some ss → OrdinaryStats ss) ∧ p.traces ≠ [] ∧ p.problems = ["x"] :=
  ⟨{ request := none, sources := ["a"], totalCount := 1, matchCount := 1, traces := [printedTrace], stats := none, problems := ["x"] },
    fun st h => by
      have h' : st ∈ [printedTrace] := h
      rw [List.mem_singleton.mp h']; exact printedTrace_ordinary, fun _ h => by simp at h, by simp, rfl⟩

end Trc.Cmd

namespace Trc.Web

/-- **C72** A client of which only the URI is set: no buffer is asked for, it waits three seconds between attempts, and asks for statistics every ten. -/
theorem C72_unset (uri : List Char) :
    let i := ({ uri } : StreamClient).initialize
    i.sendBuffer = 0 ∧ i.retryInterval = 3000000000 ∧ i.statsInterval = 10000000000 := by
  exact ⟨rfl, rfl, rfl⟩

end Trc.Web
