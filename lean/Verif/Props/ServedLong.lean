import Verif.Props.ServedStream

/-!
# C151: searches that tell more than a trace holds

The rest of C151: `C151_search_partial` is about traces that hold all their events.
-/

namespace Trc.Web

open Core Core.Spec Wrap Fmt

section

variable {W A : Type} [Arg A] [Render W A] [Humanize] {v : HandlerValues A}

/-- **C151** fails for every search that tells more than its trace holds, as one of many servers does: the client is answered as ever, but the
first event of the trace is not the line of the request, and the last one is not the status and the size of the response, but a notice. -/
theorem C151_long_always_violated [Nonempty W] (hv : v.Rendered W) (g : Globals) (start : Time) (id source category : String) (w w' : World A)
    (ex : List (AEnv W × Act A)) (ctx : Ctx A) (tr : Tr A) (hg : maybeGet ctx = some tr) (hu : tr.unprefixed)
    (compile : Compile) (orphan : Nat) (raw req : SearchRequest) (problems : List String) (hn : raw.normalize compile = some (req, problems))
    (search : Ctx A → SearchRequest → List (Act A)) (view : Rendering)
    (s : Srch) (lines : List (Logged A)) (answer : Answer) (hs : Searches v.toValues req.limit [] ctx s lines answer)
    (hsearch : search ctx req = (lines.map Logged.line).flatMap Line.acts)
    (r : HTTPRequest) (resp : Resp) (hr1 : resp.wroteHeader = false) (hr2 : resp.contentLength = none) (stack stack' : List StdFrame)
    (next : Ctx A → List (Does A)) (hnext : searchHandler v compile orphan stack' (.ok raw) search view ctx = some (next ctx))
    (o : Outcome) (took : Duration)
    (hex : callsIn tr.root (ex.map Prod.snd) = callsIn tr.root (handle (ctx, tr, []) v.num r resp stack next o took).1.acts)
    (hm : ∀ p ∈ ex, notMake tr.root p.2) (hrun : w.run ex = some w')
    (ht : w.traces tr.root = some (newCoreTrace g start id source category zeroTrace))
    (M : Nat) (hM : g.traceMaxEvents = M) (h1 : 1 ≤ M)
    (hlen : M < (headerTexts r).length + (s.report req.limit).length + (view.report "traces.html").length + 3) :
    ∃ (status : Int) (t : CoreTrace A), (status = 500 ↔ view.fails "traces.html") ∧
      (resp.head = false → resp.body = 0 → received resp (onWriter (next ctx)) = (status, answerBytes "traces.html" view)) ∧
      w'.traces tr.root = some t ∧ t.finished = true ∧
      ∀ (env : Env W) evs, t.events' env = some evs → ∃ es : List (Bool × String), es.Perm (s.report req.limit) ∧
        evs.map (fun ev => (ev.isError, ev.what)) =
          ((headerTexts r).map (fun h => (false, h)) ++
            (false, "search request " ++ requestString req) :: es ++ view.report "traces.html").take (M - 1) ++
          [(false, "(truncated event count " ++
            toString ((headerTexts r).length + (s.report req.limit).length + (view.report "traces.html").length + 3 - M) ++ ")")] := by
  obtain ⟨status, acts, es, hst, r2, r3, hnext', hp, hlast, hall⟩ :=
    search_serves (W := W) hv ctx tr hg hu compile orphan raw req problems hn search view s lines answer hs hsearch stack' next hnext
  have honce := once_reported resp hr1 hr2 status (by omega) (answerBytes "traces.html" view) acts
  rw [← hnext'] at honce
  have hall' := ((first_texts hv.values.str hg hu r stack).append hall).append
    (last_texts hv.values.str v.num hv.values.num hg hu status (answerBytes "traces.html" view) took stack)
  have hacts := handle_acts (made := (ctx, tr, [])) hg v.num r resp stack next o took
  simp only [honce.1] at hacts
  have helse : elseActs (next ctx) = acts := by rw [hnext']; simp [elseActs]
  rw [helse, List.nil_append] at hacts
  have hlp := hp.length_eq
  obtain ⟨t, t1, t2, t3⟩ := tells_long [.finish] (by simp [Ending, isRead]) g start id source category w w' ex tr _ _ hall'
    (by rw [hex, hacts, callsIn_append, finishActs_calls]) hm hrun ht M hM h1 (by
      simp only [requestLines, List.length_append, List.length_cons, List.length_map, List.length_nil]
      omega)
  refine ⟨status, t, r2, honce.2, t1, t2, fun env evs hevs => ⟨es, hp, ?_⟩⟩
  rw [t3 env evs hevs]
  obtain ⟨n, rfl⟩ : ∃ n, M = n + 1 := ⟨M - 1, by omega⟩
  congr 1
  · rw [List.take_append_of_le_length (by
      simp only [requestLines, List.length_append, List.length_cons, List.length_map]
      omega)]
    simp only [requestLines, List.cons_append, List.take_succ_cons, List.drop_succ_cons, List.drop_zero, Nat.add_sub_cancel, List.append_assoc]
  · simp only [requestLines, List.length_append, List.length_cons, List.length_map, List.length_nil, hlp]
    rw [show (headerTexts r).length + 1 + ((s.report req.limit).length + 1 + (view.report "traces.html").length) + (0 + 1) - (n + 1) =
      (headerTexts r).length + (s.report req.limit).length + (view.report "traces.html").length + 3 - (n + 1) by omega]

end

end Trc.Web

/-! ## Example -/

namespace Trc.Web.Witness.ServedLong

open Core Core.Spec Wrap Fmt Wrap.Witness.Searching Wrap.Witness.Handling Served

/-- The program of the example of C151, with traces of at most 10 events, the least there is. -/
def small : World String :=
  { traces := fun b => if b = 0 then some (newCoreTrace (Globals.after [.maxEvents 10]) ⟨0, none⟩ "i" "s" "c" zeroTrace) else none }

theorem runs : (small.run (run (.ok asked))).isSome = true := by decide +kernel

/-- The search tells six lines, and the trace would need sixteen events. -/
example : ∃ w t, small.run (run (.ok asked)) = some w ∧ w.traces 0 = some t ∧ t.finished = true ∧
    received {} (onWriter (next (.ok asked) ctx)) = (200, 2000) ∧
    ∀ env evs, t.events' (W := Unit) env = some evs → evs.map (·.what) ≠ [] ∧ (evs.map (·.what)).getLast? = some "(truncated event count 6)" := by
  obtain ⟨w, hw⟩ := Option.isSome_iff_exists.mp runs
  obtain ⟨status, t, -, -, h4, h5, h6⟩ := C151_long_always_violated (W := Unit) values_ok (Globals.after [.maxEvents 10]) ⟨0, none⟩ "i" "s" "c" small w (run (.ok asked)) ctx tr rfl trivial
    comp 0 asked normal [] normalized Wrap.Witness.Handling.search view srch logged _ searched rfl request {} rfl rfl [] [] (next (.ok asked)) rfl .returned 1000
    (by rw [Served.run, List.map_map]; simp [Function.comp_def]) (no_make _ (by decide +kernel)) hw rfl 10 rfl (by decide) (by decide +kernel)
  refine ⟨w, t, hw, h4, h5, by decide +kernel, fun env evs hevs => ?_⟩
  obtain ⟨es, -, he⟩ := h6 env evs hevs
  have h := congrArg (List.map Prod.snd) he
  rw [List.map_map] at h
  have h' : evs.map (·.what) = _ := h
  rw [h', List.map_append]
  refine ⟨by simp, ?_⟩
  rw [List.getLast?_append, show (List.map Prod.snd [(false, "(truncated event count " ++ toString ((headerTexts request).length +
    (Srch.report normal.limit srch).length + (Rendering.report "traces.html" view).length + 3 - 10) ++ ")")]).getLast? =
    some "(truncated event count 6)" from by decide +kernel]
  rfl

end Trc.Web.Witness.ServedLong
