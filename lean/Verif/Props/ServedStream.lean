import Verif.Web.ServedStream
import Verif.Props.ServedSearch
import Verif.Props.StreamLines

/-!
# C152: the trace of a stream that is served behind the middleware, from its first event to its last
-/

namespace Trc.Wrap

open Core Core.Spec Fmt

section
variable {W A : Type} [Render W A] [Arg A] [Humanize]

omit [Render W A] [Arg A] [Humanize] in
theorem noSetMax_of_none (l : Hist W A) (h : limitsSet l = []) : noSetMax l := by
  induction l with
  | nil => trivial
  | cons p l ih =>
    obtain ⟨e, c⟩ := p
    cases c <;> simp_all [limitsSet, noSetMax]

/-- A trace that is told more than it holds: the first event and the last ones are missing, and a notice is in their place. -/
theorem tells_long (tail : List (Call A)) (htail : Ending tail) (g : Globals) (start : Time) (id source category : String) (w w' : World A)
    (ex : List (AEnv W × Act A)) (tr : Tr A) (acts : List (Act A)) (texts : List (Bool × String)) (htells : GivesTexts W tr acts texts)
    (hex : callsIn tr.root (ex.map Prod.snd) = callsIn tr.root acts ++ tail)
    (hm : ∀ p ∈ ex, notMake tr.root p.2) (hrun : w.run ex = some w')
    (ht : w.traces tr.root = some (newCoreTrace g start id source category zeroTrace))
    (M : Nat) (hM : g.traceMaxEvents = M) (h1 : 1 ≤ M) (hlen : M < texts.length) :
    ∃ t, w'.traces tr.root = some t ∧ t.finished = !tail.isEmpty ∧
      ∀ (env : Env W) evs, t.events' env = some evs → evs.map (fun ev => (ev.isError, ev.what)) =
        (texts.take M).drop 1 ++ [(false, "(truncated event count " ++ toString (texts.length - M) ++ ")")] := by
  obtain ⟨said, s1, s2⟩ := htells
  have hsl := s2.length_eq
  rw [s1] at hex
  rw [new_conc (W := W)] at ht
  obtain ⟨h, t', r1, r2, r3⟩ := run_hist hrun ht hm
  rw [run_conc] at r1
  obtain rfl := (Option.some.inj r1).symm
  have hsnd := callsOn_snd tr.root ex
  rw [hex] at hsnd
  obtain ⟨calls, last, hC, hc1, hc2⟩ := List.map_eq_append_iff.mp hsnd
  have hfl := ending_finish htail hc2
  have hz : calls = (calls.map Prod.fst).zip (said.map Said.call) := by
    rw [← hc1]; exact (zip_fst_snd _).symm
  have hcl : calls.length = said.length := by simpa using congrArg List.length hc1
  obtain ⟨g1, g2⟩ := logs_said said (calls.map Prod.fst)
  have g3 := logged_said_length said (calls.map Prod.fst) (by simpa using hcl)
  rw [← hz] at g1 g2 g3
  have hact : active (callsOn tr.root ex) = active calls := by rw [hC, active_finish _ _ hfl]
  have hlog : logged (callsOn tr.root ex) = logged calls := by unfold logged; rw [hact]
  have hns : noSetMax (active (callsOn tr.root ex)) := by
    rw [hact]; exact noSetMax_of_none _ g1
  have q1 := (SameBut.refl (Abs.new g.traceMaxEvents : Abs W A)).run h
  rw [r3] at q1
  obtain ⟨e1, e2, -⟩ := run_stored (a := (Abs.new g.traceMaxEvents : Abs W A)) rfl M (by simp [Abs.new, hM]) (callsOn tr.root ex) hns
    (by simp [Abs.new]) (by simp [Abs.new])
  have e5 : ((Abs.new g.traceMaxEvents : Abs W A).run (callsOn tr.root ex)).stored.length +
      ((Abs.new g.traceMaxEvents : Abs W A).run (callsOn tr.root ex)).trunc = (logged calls).length := by
    rw [← hlog]
    simpa [Abs.new] using run_count (a := (Abs.new g.traceMaxEvents : Abs W A)) rfl (callsOn tr.root ex)
  have e3 := run_finishedAt (a := (Abs.new g.traceMaxEvents : Abs W A)) rfl (callsOn tr.root ex)
  have hsame := congrArg List.length q1.entries
  rw [hlog] at e1
  rw [show (Abs.new g.traceMaxEvents : Abs W A).stored = [] from rfl, List.map_nil, List.nil_append] at e1
  simp only [List.length_map] at hsame
  have e3' : ((Abs.new g.traceMaxEvents : Abs W A).run (callsOn tr.root ex)).fin = last.head?.map (·.1.now) := by
    rw [e3, hC, finishedAt_said said calls hc1 last hfl]
  have k1 := q1.entries.trans e1
  have k2 := q1.trunc
  have k3 := q1.fin.trans e3'
  have hlen1 := congrArg List.length e1
  simp only [List.length_map, List.length_take, g3] at hlen1
  generalize hx : (Abs.new g.traceMaxEvents : Abs W A).run h = x at k1 k2 k3 r2 hsame ⊢
  refine ⟨_, r2, ?_, ?_⟩
  · show x.fin.isSome = !tail.isEmpty
    rw [k3, ← hc2]
    cases last <;> rfl
  · intro env evs hevs
    have hstored : x.stored.length = M := by
      have := congrArg List.length k1
      simp only [List.length_map, List.length_take, g3] at this
      omega
    have htr : x.trunc = texts.length - M := by
      rw [k2]; omega
    have hne : x.stored.isEmpty = false := by
      cases hs : x.stored with
      | nil => rw [hs] at hstored; simp at hstored; omega
      | cons => rfl
    rw [events'_conc, read_all, htr, if_pos (by omega), hne] at hevs
    simp only [Bool.false_eq_true, if_false, Option.some.injEq] at hevs
    rw [← hevs, List.map_append]
    congr 1
    · rw [List.map_drop]
      congr 1
      apply List.ext_getElem (by simp; omega)
      intro i i1 i2
      simp only [List.length_map] at i1
      have hi : i < said.length := by omega
      have hc' : i < calls.length := by omega
      have hil : i < (logged calls).length := by omega
      have he : (logged calls)[i]? = some (x.stored[i]).entry := by
        have := congrArg (·[i]?) k1
        simp only [List.getElem?_map, List.getElem?_eq_getElem i1, Option.map_some, List.getElem?_take] at this
        rw [if_pos (by omega)] at this
        exact this.symm
      have h2 := g2 i _ said[i] he (List.getElem?_eq_getElem hi)
      simp only [List.getElem?_map, List.getElem?_eq_getElem hc', Option.map_some, Option.some.injEq] at h2
      have hrel := (List.forall₂_iff_get.mp s2).2 i hi (by omega)
      have r := event_reports { source, id, category, start, nostack := g.traceNoStacks } x.stored[i] env.w
      rw [h2] at r
      simp only [List.getElem_map, List.getElem_take]
      obtain ⟨m', hm'⟩ := r.2.2.2.2
      exact Prod.ext (r.2.1.trans hrel.1) (hm'.trans (hrel.2 m'))

end

end Trc.Wrap

namespace Trc.Web

open Broker Core Core.Spec Wrap Fmt

section
variable {W A : Type} [Render W A] [Arg A] [Humanize] {v : StreamValues A}

omit [Arg A] [Humanize] in
theorem elseActs_actions (does : List (Does A)) : elseActs does = does.flatMap Does.actions := by
  unfold elseActs
  congr 1

/-- The trace of a request that has been served, whatever the handler writes and in whatever order. -/
theorem served_ended (hstr : ∀ (m : W) s, Render.arg m [] 's' (Arg.str s : A) = s.toList) (num : Int → A)
    (hnum : ∀ (m : W) n, Render.arg m [] 'd' (num n) = (toString n).toList) (g : Globals) (start : Time) (id source category : String) (w w' : World A)
    (ex : List (AEnv W × Act A)) (ctx : Ctx A) (tr : Tr A) (hg : maybeGet ctx = some tr) (hu : tr.unprefixed)
    (r : HTTPRequest) (resp : Resp) (stack : List StdFrame) (next : Ctx A → List (Does A)) (o : Outcome) (took : Duration)
    (texts : List (Bool × String)) (htells : GivesTexts W tr (elseActs (next ctx)) texts)
    (hex : callsIn tr.root (ex.map Prod.snd) = callsIn tr.root (handle (ctx, tr, []) num r resp stack next o took).1.acts)
    (hm : ∀ p ∈ ex, notMake tr.root p.2) (hrun : w.run ex = some w')
    (ht : w.traces tr.root = some (newCoreTrace g start id source category zeroTrace))
    (hlen : ((texts.length + 5 : Nat) : Int) ≤ g.traceMaxEvents) :
    ∃ t, w'.traces tr.root = some t ∧ t.id = id ∧ t.category = category ∧ t.finished = true ∧
      (t.errored = true ↔ ∃ x ∈ texts, x.1 = true) ∧
      ∀ (env : Env W) evs, t.events' env = some evs →
        evs.map (fun ev => (ev.isError, ev.what)) = requestLines r ++ texts ++
          [(false, outcomeText (reported resp (onWriter (next ctx))).1 (reported resp (onWriter (next ctx))).2 took)] := by
  have hall := ((first_texts hstr hg hu r stack).append htells).append
    (last_texts hstr num hnum hg hu (reported resp (onWriter (next ctx))).1 (reported resp (onWriter (next ctx))).2 took stack)
  have hacts := handle_acts (made := (ctx, tr, [])) hg num r resp stack next o took
  rw [List.nil_append] at hacts
  have hl : (requestLines r).length ≤ 4 := by
    simp only [requestLines, headerTexts, List.length_cons, List.length_map]
    have := List.length_filter_le (fun h => decide (r.header h ≠ "")) ["User-Agent", "Accept", "Content-Type"]
    simp only [List.length_cons, List.length_nil] at this
    omega
  obtain ⟨t, t1, t2, t3, t4, t5, t6⟩ := tells_ended [.finish] (by simp [Ending, isRead]) g start id source category w w' ex tr _ _ hall
    (by rw [hex, hacts, callsIn_append, finishActs_calls]) hm hrun ht (by
      refine Int.le_trans ?_ hlen
      simp only [List.length_append, List.length_cons, List.length_nil]
      omega)
  refine ⟨t, t1, t2, t3, t4, ?_, t6⟩
  rw [t5]
  simp only [List.mem_append, List.mem_singleton]
  constructor
  · rintro ⟨x, (hx | hx) | rfl, e⟩
    · simp only [requestLines, List.mem_cons, List.mem_map] at hx
      rcases hx with rfl | ⟨_, _, rfl⟩ <;> cases e
    · exact ⟨x, hx, e⟩
    · cases e
  · rintro ⟨x, hx, e⟩
    exact ⟨x, Or.inl (Or.inr hx), e⟩

/-- **C152** A request for a stream is served behind the middleware, and the trace that the middleware has made for it is logged to by no one else.
When the request is over, however it has ended, the trace is finished, and its events are, from the first to the last: the line of the request,
the headers, what is streamed, what the handler tells while it serves, with the statistics of the whole stream somewhere among it, and the status and
the size of the response.  The goroutine that streams does not log after that: its line is never lost.  The trace is errored if and only if something has
failed or the filter could not be decoded.  Full statement: also for streams that tell more than a trace holds, see `C152_long_always_violated`. -/
theorem C152_stream_partial (hv : v.Rendered W) (g : Globals) (start : Time) (id source category : String) (w w' : World A)
    (ex : List (AEnv W × Act A)) (ctx : Ctx A) (tr : Tr A) (hg : maybeGet ctx = some tr) (hu : tr.unprefixed)
    (compile : Compile) (mulFrac : Nat → Nat → Nat → Nat) (size : JSON → Nat) (sr : StreamHTTP) (e : String)
    (cap : Ch → Nat) (k : HCfg) (hstart : startStream compile mulFrac size sr = .streams k.f k.interval (cap k.c))
    (r : HTTPRequest) (resp : Resp) (stack : List StdFrame) (stack' : SLine A → List StdFrame)
    (next : Ctx A → List (Does A)) (s : TSt A) (hnext : StreamServes v compile mulFrac size sr e cap k tr stack' s (next ctx))
    (o : Outcome) (took : Duration)
    (hex : callsIn tr.root (ex.map Prod.snd) = callsIn tr.root (handle (ctx, tr, []) v.num r resp stack next o took).1.acts)
    (hm : ∀ p ∈ ex, notMake tr.root p.2) (hrun : w.run ex = some w')
    (ht : w.traces tr.root = some (newCoreTrace g start id source category zeroTrace))
    (hlen : ((s.lines.length + 5 : Nat) : Int) ≤ g.traceMaxEvents) :
    ∃ t, w'.traces tr.root = some t ∧ t.id = id ∧ t.category = category ∧ t.finished = true ∧
      (t.errored = true ↔ (readFilter mulFrac size sr).2 = false ∨ s.failures ≠ []) ∧
      ∀ (env : Env W) evs, t.events' env = some evs → ∃ (st : StreamStats) (err : String) (x y : List (Bool × String)),
        evs.map (fun ev => (ev.isError, ev.what)) =
          (false, r.remoteAddr ++ " " ++ r.method ++ " " ++ r.url) :: (headerTexts r).map (fun h => (false, h)) ++
          (openingTexts (if (readFilter mulFrac size sr).2 then none else some e) k.f k.interval (cap k.c) ++
            (x ++ (false, statsText st ++ " (error: " ++ err ++ ")") :: y)) ++
          [(false, outcomeText (reported resp (onWriter (next ctx))).1 (reported resp (onWriter (next ctx))).2 took)] ∧
        ServingTells k.interval s.h.stop s.h.out s.failures (x ++ y) ∧
        ∃ h₁ h₂ seg, s.h.hist = h₁ ++ .returned k.g k.c st :: h₂ ∧ Session k.c h₁ k.g k.f seg ∧ Accounts compile k.c k.f seg st := by
  generalize hd : next ctx = does at hnext
  cases hnext with
  | refuses h => rw [hstart] at h; cases h
  | streams h1 hs hret hacts =>
    obtain ⟨st, err, x, y, texts, htell, hl, rfl, herr, r2, hacc⟩ := stream_tells (W := W) hv tr hu compile mulFrac size sr e cap k hstart s hs hret stack'
    rw [← hacts, ← hd, ← elseActs_actions] at htell
    obtain ⟨t, t1, t2, t3, t4, t5, t6⟩ := served_ended hv.values.str v.num hv.values.num g start id source category w w' ex ctx tr hg hu r resp stack next o took
      _ htell hex hm hrun ht (by rw [← hl]; exact hlen)
    refine ⟨t, t1, t2, t3, t4, t5.trans herr, fun env evs hevs => ⟨st, err, x, y, ?_, r2, hacc⟩⟩
    rw [t6 env evs hevs, requestLines, hd]

/-- **C152** fails for every stream that tells more than its trace holds, as one that is not stopped does in the end, since it tells its statistics again and again:
when the request is over, the first event of its trace is not the line of the request, and the last one is not the status and the size of the response, but a notice. -/
theorem C152_long_always_violated (hv : v.Rendered W) (g : Globals) (start : Time) (id source category : String) (w w' : World A)
    (ex : List (AEnv W × Act A)) (ctx : Ctx A) (tr : Tr A) (hg : maybeGet ctx = some tr) (hu : tr.unprefixed)
    (compile : Compile) (mulFrac : Nat → Nat → Nat → Nat) (size : JSON → Nat) (sr : StreamHTTP) (e : String)
    (cap : Ch → Nat) (k : HCfg) (hstart : startStream compile mulFrac size sr = .streams k.f k.interval (cap k.c))
    (r : HTTPRequest) (resp : Resp) (stack : List StdFrame) (stack' : SLine A → List StdFrame)
    (next : Ctx A → List (Does A)) (s : TSt A) (hnext : StreamServes v compile mulFrac size sr e cap k tr stack' s (next ctx))
    (o : Outcome) (took : Duration)
    (hex : callsIn tr.root (ex.map Prod.snd) = callsIn tr.root (handle (ctx, tr, []) v.num r resp stack next o took).1.acts)
    (hm : ∀ p ∈ ex, notMake tr.root p.2) (hrun : w.run ex = some w')
    (ht : w.traces tr.root = some (newCoreTrace g start id source category zeroTrace))
    (M : Nat) (hM : g.traceMaxEvents = M) (h1 : 1 ≤ M) (hlen : M ≤ s.lines.length + (headerTexts r).length + 1) :
    ∃ t, w'.traces tr.root = some t ∧ t.finished = true ∧
      ∀ (env : Env W) evs, t.events' env = some evs → ∃ (st : StreamStats) (err : String) (x y : List (Bool × String)),
        evs.map (fun ev => (ev.isError, ev.what)) =
          ((headerTexts r).map (fun h => (false, h)) ++
          (openingTexts (if (readFilter mulFrac size sr).2 then none else some e) k.f k.interval (cap k.c) ++
            (x ++ (false, statsText st ++ " (error: " ++ err ++ ")") :: y))).take (M - 1) ++
          [(false, "(truncated event count " ++ toString (s.lines.length + (headerTexts r).length + 2 - M) ++ ")")] ∧
        ServingTells k.interval s.h.stop s.h.out s.failures (x ++ y) := by
  generalize hd : next ctx = does at hnext
  cases hnext with
  | refuses h => rw [hstart] at h; cases h
  | streams h1' hs hret hacts =>
    obtain ⟨st, err, x, y, texts, htell, hl, rfl, herr, r2, hacc⟩ := stream_tells (W := W) hv tr hu compile mulFrac size sr e cap k hstart s hs hret stack'
    rw [← hacts, ← hd, ← elseActs_actions] at htell
    have hall := ((first_texts hv.values.str hg hu r stack).append htell).append
      (last_texts hv.values.str v.num hv.values.num hg hu (reported resp (onWriter (next ctx))).1 (reported resp (onWriter (next ctx))).2 took stack)
    have hacts' := handle_acts (made := (ctx, tr, [])) hg v.num r resp stack next o took
    rw [List.nil_append] at hacts'
    obtain ⟨t, t1, t2, t3⟩ := tells_long [.finish] (by simp [Ending, isRead]) g start id source category w w' ex tr _ _ hall
      (by rw [hex, hacts', callsIn_append, finishActs_calls]) hm hrun ht M hM h1 (by
        rw [List.length_append, List.length_append, ← hl]
        simp only [requestLines, List.length_cons, List.length_map, List.length_nil]
        omega)
    refine ⟨t, t1, t2, fun env evs hevs => ⟨st, err, x, y, ?_, r2⟩⟩
    rw [t3 env evs hevs]
    obtain ⟨n, rfl⟩ : ∃ n, M = n + 1 := ⟨M - 1, by omega⟩
    congr 1
    · rw [List.take_append_of_le_length (by
        rw [List.length_append, ← hl]
        simp only [requestLines, List.length_cons, List.length_map]
        omega)]
      simp only [requestLines, List.cons_append, List.take_succ_cons, List.drop_succ_cons, List.drop_zero, Nat.add_sub_cancel]
    · rw [List.length_append, List.length_append, ← hl]
      simp only [requestLines, List.length_cons, List.length_map, List.length_nil]
      rw [show (headerTexts r).length + 1 + s.lines.length + (0 + 1) - (n + 1) = s.lines.length + (headerTexts r).length + 2 - (n + 1) by omega]

/-- **C152** A request for a stream whose query is refused: the client receives status 400 with the reason, and the trace tells nothing but the line of the request with
the headers, that the filter could not be decoded, if it could not, and the status and the size.  It does not tell the reason, and it is errored only if the filter
could not be decoded. -/
theorem C152_refused (hv : v.Rendered W) (g : Globals) (start : Time) (id source category : String) (w w' : World A)
    (ex : List (AEnv W × Act A)) (ctx : Ctx A) (tr : Tr A) (hg : maybeGet ctx = some tr) (hu : tr.unprefixed)
    (compile : Compile) (mulFrac : Nat → Nat → Nat → Nat) (size : JSON → Nat) (sr : StreamHTTP) (e : String)
    (cap : Ch → Nat) (k : HCfg) (status : Int) (reason : String) (hstart : startStream compile mulFrac size sr = .refused status reason)
    (r : HTTPRequest) (resp : Resp) (hr1 : resp.wroteHeader = false) (hr2 : resp.contentLength = none)
    (stack : List StdFrame) (stack' : SLine A → List StdFrame)
    (next : Ctx A → List (Does A)) (s : TSt A) (hnext : StreamServes v compile mulFrac size sr e cap k tr stack' s (next ctx))
    (o : Outcome) (took : Duration)
    (hex : callsIn tr.root (ex.map Prod.snd) = callsIn tr.root (handle (ctx, tr, []) v.num r resp stack next o took).1.acts)
    (hm : ∀ p ∈ ex, notMake tr.root p.2) (hrun : w.run ex = some w')
    (ht : w.traces tr.root = some (newCoreTrace g start id source category zeroTrace))
    (hlen : (6 : Int) ≤ g.traceMaxEvents) :
    (resp.head = false → resp.body = 0 → received resp (onWriter (next ctx)) = (400, reason.utf8ByteSize + 1)) ∧
    ∃ t, w'.traces tr.root = some t ∧ t.id = id ∧ t.category = category ∧ t.finished = true ∧
      (t.errored = true ↔ (readFilter mulFrac size sr).2 = false) ∧
      ∀ (env : Env W) evs, t.events' env = some evs → evs.map (fun ev => (ev.isError, ev.what)) =
          (false, r.remoteAddr ++ " " ++ r.method ++ " " ++ r.url) :: (headerTexts r).map (fun h => (false, h)) ++
          (if (readFilter mulFrac size sr).2 then [] else [(true, "decode filter error (" ++ e ++ "), using default")]) ++
          [(false, outcomeText 400 (reason.utf8ByteSize + 1) took)] := by
  generalize hd : next ctx = does at hnext
  cases hnext with
  | streams h1 => rw [hstart] at h1; cases h1
  | @refuses status' reason' h =>
    rw [hstart] at h
    obtain ⟨rfl, rfl⟩ := StreamAnswer.refused.inj h
    obtain rfl : status = 400 := by
      unfold startStream at hstart
      split at hstart
      · cases hstart
      · exact (StreamAnswer.refused.inj hstart).1.symm
    have htell : GivesTexts W tr ((beginLines v compile mulFrac size sr e).flatMap (SLine.acts tr stack'))
        (if (readFilter mulFrac size sr).2 then [] else [(true, "decode filter error (" ++ e ++ "), using default")]) := by
      apply reads_tells hu stack'
      unfold beginLines
      rw [hstart]
      cases (readFilter mulFrac size sr).2 with
      | true => exact .nil
      | false => exact .cons (reads_v hv .errorf "decode filter error (" "), using default" e false (by decide) (by decide)) .nil
    have honce := once_reported resp hr1 hr2 400 (by omega) (reason.utf8ByteSize + 1) ((beginLines v compile mulFrac size sr e).flatMap (SLine.acts tr stack'))
    rw [← hd] at honce
    refine ⟨by rw [← hd]; exact honce.2, ?_⟩
    have helse : elseActs (next ctx) = (beginLines v compile mulFrac size sr e).flatMap (SLine.acts tr stack') := by
      rw [hd]; simp [elseActs]
    rw [← helse] at htell
    obtain ⟨t, t1, t2, t3, t4, t5, t6⟩ := served_ended hv.values.str v.num hv.values.num g start id source category w w' ex ctx tr hg hu r resp stack next o took
      _ htell hex hm hrun ht (by
        refine Int.le_trans ?_ hlen
        cases (readFilter mulFrac size sr).2 <;> simp)
    refine ⟨t, t1, t2, t3, t4, ?_, fun env evs hevs => ?_⟩
    · rw [t5]; cases (readFilter mulFrac size sr).2 <;> simp
    · rw [t6 env evs hevs, honce.1]; rfl

end

end Trc.Web

/-! ## Example -/

namespace Trc.Web.Witness.ServedStream

open Broker Core Core.Spec Wrap Fmt Wrap.Witness.Searching StreamLines

def request : HTTPRequest :=
  { remoteAddr := "1.2.3.4:5", method := "GET", url := "/traces", header := fun h => if h = "Accept" then "text/event-stream" else "" }

/-- The stream of the example of C142, with what is written: the header, the first event and the statistics. -/
def next (_ : Ctx String) : List (Does String) :=
  [.acts ((lines.take 6).flatMap (SLine.acts tr fun _ => [])), .writeHeader 200, .flush, .write 70, .flush, .write 60, .flush,
   .acts ((lines.drop 6).flatMap (SLine.acts tr fun _ => []))]

def refusal (_ : Ctx String) : List (Does String) :=
  [.acts [], .writeHeader 400, .write ("bad request: query: invalid, ignoring ()".utf8ByteSize + 1)]

def run (next : Ctx String → List (Does String)) : List (AEnv Unit × Act String) :=
  (handle (ctx, tr, []) values.num request {} [] next .returned 1000).1.acts.map fun act =>
    ({ now := ⟨1, none⟩, w := (), id := "", subscribed := true }, act)

theorem runs : (world.run (run next)).isSome = true := by decide +kernel
theorem runs_refused : (world.run (run refusal)).isSome = true := by decide +kernel

theorem no_make (next : Ctx String → List (Does String))
    (h : (run next).all (fun p => match p.2 with | .make _ _ _ => false | _ => true) = true) : ∀ p ∈ run next, notMake tr.root p.2 := by
  intro p hp
  have := List.all_eq_true.mp h p hp
  cases hq : p.2 with
  | make b s c => rw [hq] at this; cases this
  | _ => trivial

/-- The trace of a stream whose filter could not be decoded: it is finished and errored, and the middleware reports 130 bytes. -/
example : ∃ w t, world.run (run next) = some w ∧ w.traces 0 = some t ∧ t.finished = true ∧ t.errored = true ∧
    reported {} (onWriter (next ctx)) = (200, 130) := by
  obtain ⟨w, hw⟩ := Option.isSome_iff_exists.mp runs
  obtain ⟨s, a, b, c, d⟩ := reached
  rw [← first_eq] at a
  obtain ⟨t, h1, -, -, h2, h3, -⟩ := C152_stream_partial (W := Unit) values_ok (Globals.after []) ⟨0, none⟩ "i" "s" "c" world w (run next) ctx tr rfl trivial
    comp mulFrac size r "EOF" cap k starts request {} [] (fun _ => []) next s (.streams starts a b (by rw [c]; rfl)) .returned 1000
    (by rw [run, List.map_map]; simp [Function.comp_def]) (no_make next (by decide +kernel)) hw rfl (by rw [c]; decide)
  exact ⟨w, t, hw, h1, h2, h3.mpr (Or.inl rfl), by decide +kernel⟩

/-- The same with a trace that holds ten events. -/
def small : World String :=
  { traces := fun a => if a = 0 then some (newCoreTrace (Globals.after [.maxEvents 10]) ⟨0, none⟩ "i" "s" "c" zeroTrace) else none }

theorem runs_small : (small.run (run next)).isSome = true := by decide +kernel

example : ∃ w t evs, small.run (run next) = some w ∧ w.traces 0 = some t ∧ t.finished = true ∧
    t.events' { now := ⟨2, none⟩, w := () } = some evs ∧ (evs.map (·.what)).getLast? = some "(truncated event count 2)" := by
  obtain ⟨w, hw⟩ := Option.isSome_iff_exists.mp runs_small
  obtain ⟨s, a, b, c, d⟩ := reached
  rw [← first_eq] at a
  have hh : headerTexts request = ["Accept: text/event-stream"] := by decide +kernel
  obtain ⟨t, h1, h2, h3⟩ := C152_long_always_violated (W := Unit) values_ok (Globals.after [.maxEvents 10]) ⟨0, none⟩ "i" "s" "c" small w (run next) ctx tr rfl trivial
    comp mulFrac size r "EOF" cap k starts request {} [] (fun _ => []) next s (.streams starts a b (by rw [c]; rfl)) .returned 1000
    (by rw [run, List.map_map]; simp [Function.comp_def]) (no_make next (by decide +kernel)) hw rfl 10 rfl (by decide) (by rw [c, hh]; decide)
  have hev : (t.events' ({ now := ⟨2, none⟩, w := () } : Env Unit)).isSome = true := by
    have e : (small.run (run next)).bind (fun w => (w.traces 0).bind fun t => t.events' ({ now := ⟨2, none⟩, w := () } : Env Unit)) = t.events' ({ now := ⟨2, none⟩, w := () } : Env Unit) := by
      rw [hw, Option.bind_some, show w.traces 0 = some t from h1, Option.bind_some]
    rw [← e]; decide +kernel
  obtain ⟨evs, hevs⟩ := Option.isSome_iff_exists.mp hev
  obtain ⟨st, err, x, y, h4, -⟩ := h3 _ evs hevs
  refine ⟨w, t, evs, hw, h1, h2, hevs, ?_⟩
  have h5 := congrArg (List.map Prod.snd) h4
  rw [List.map_map] at h5
  have h6 : evs.map (·.what) = _ := h5
  rw [h6, List.map_append, c, hh]
  simp only [List.map_cons, List.map_nil, List.getLast?_concat]
  decide +kernel

def bad : StreamHTTP := ⟨bytesOf "q=(", false, none⟩

theorem bad_refused : startStream comp mulFrac size bad = .refused 400 "bad request: query: invalid, ignoring ()" := by
  have hq : (parseFilter mulFrac (bytesOf "q=(")).query = "(" := by decide +kernel
  exact start_invalid comp size _ (parseFilter mulFrac (bytesOf "q=(")) true rfl rfl (by rw [hq]; decide) "" rfl

/-- A stream that is refused: the client gets 400, and the trace is finished and not errored. -/
example : ∃ w t, world.run (run refusal) = some w ∧ w.traces 0 = some t ∧ t.finished = true ∧ t.errored = false := by
  obtain ⟨w, hw⟩ := Option.isSome_iff_exists.mp runs_refused
  have hb : beginLines values comp mulFrac size bad "" = [] := by
    unfold beginLines; rw [bad_refused]; rfl
  have hs := StreamServes.refuses (v := values) (e := "") (cap := cap) (k := k) (tr := tr) (stack := fun _ => []) bad_refused
  rw [hb] at hs
  obtain ⟨-, t, h1, -, -, h2, h3, -⟩ := C152_refused (W := Unit) values_ok (Globals.after []) ⟨0, none⟩ "i" "s" "c" world w (run refusal) ctx tr rfl trivial
    comp mulFrac size bad "" cap k 400 _ bad_refused request {} rfl rfl [] (fun _ => []) refusal _ hs .returned 1000
    (by rw [run, List.map_map]; simp [Function.comp_def]) (no_make refusal (by decide +kernel)) hw rfl (by decide)
  refine ⟨w, t, hw, h1, h2, ?_⟩
  cases he : t.errored with
  | false => rfl
  | true => exact absurd (h3.mp he) (by simp [readFilter, bad])

end Trc.Web.Witness.ServedStream
