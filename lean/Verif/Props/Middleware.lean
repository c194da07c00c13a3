import Verif.Web.Middleware
import Verif.Props.Core

/-!
# C65, C66: the HTTP middleware
-/

namespace Trc.Web

open Trc.Core Trc.Core.Spec

variable {W A : Type}

/-! ## Specification -/

/-- The calls a handler makes on its trace. -/
def traceCalls : List (HOp W A) → Hist W A
  | [] => []
  | .trace env c :: ops => (env, c) :: traceCalls ops
  | _ :: ops => traceCalls ops

/-- The header lines to be logged. -/
def headerLines (x : Around W A) (r : HTTPRequest) : Hist W A :=
  (["User-Agent", "Accept", "Content-Type"].filter fun h => r.header h ≠ "").map fun h =>
    (x.envHeader h, .log .lazyTracef "%s: %s" [x.str h, x.str (r.header h)] x.callers)

/-- The request line. -/
def requestLine (x : Around W A) (r : HTTPRequest) : Env W × Call A :=
  (x.envLine, .log .lazyTracef "%s %s %s" [x.str r.remoteAddr, x.str r.method, x.str r.url] x.callers)

/-- The line with the outcome. -/
def outcomeLine (x : Around W A) (code : Int) (bytes : Nat) : Env W × Call A :=
  (x.envOutcome, .log .lazyTracef "HTTP %d, %s, %s"
    [x.num code, x.str (x.humanizeBytes bytes), x.str x.took] x.callers)

/-- The responses of net/http to a handler's calls. -/
def respond : Resp → List (HOp W A) → Resp
  | w, [] => w
  | w, .writeHeader c :: ops => respond (w.writeHeader c).1 ops
  | w, .write n :: ops => respond (w.write n).1 ops
  | w, .flush :: ops => respond w.flush ops
  | w, .trace _ _ :: ops => respond w ops

/-- What a client receives of a handler that returned: status and size of the body. -/
def received (w : Resp) (ops : List (HOp W A)) : Int × Nat :=
  ((respond w ops).finishRequest.status, (respond w ops).finishRequest.body)

/-- What the middleware reports of a handler: status and bytes. -/
def reported (w : Resp) (ops : List (HOp W A)) : Int × Nat :=
  let m := ops.foldl Req1.op ({ iw := newInterceptor w, calls := [] } : Req1 W A)
  (m.iw.getCode, m.iw.written)

/-! ## C65 -/

theorem ops_calls (ops : List (HOp W A)) (m : Req1 W A) :
    (ops.foldl Req1.op m).calls = m.calls ++ traceCalls ops := by
  induction ops generalizing m with
  | nil => simp [traceCalls]
  | cons op ops ih =>
    rw [List.foldl_cons, ih]
    cases op <;> simp [Req1.op, traceCalls]

theorem ops_iw (ops : List (HOp W A)) (m m' : Req1 W A) (h : m.iw = m'.iw) :
    (ops.foldl Req1.op m).iw = (ops.foldl Req1.op m').iw := by
  induction ops generalizing m m' with
  | nil => exact h
  | cons op ops ih =>
    rw [List.foldl_cons, List.foldl_cons]
    apply ih
    cases op <;> simp [Req1.op, h]

theorem logHeaders_calls (x : Around W A) (r : HTTPRequest) (m : Req1 W A) :
    (logHeaders x r m).calls = m.calls ++ headerLines x r ∧ (logHeaders x r m).iw = m.iw := by
  have h : ∀ (l : List String) (m : Req1 W A),
      (l.foldl (logHeader x r) m).calls = m.calls ++ (l.filter fun h => r.header h ≠ "").map (fun h =>
        (x.envHeader h, .log .lazyTracef "%s: %s" [x.str h, x.str (r.header h)] x.callers)) ∧
      (l.foldl (logHeader x r) m).iw = m.iw := by
    intro l
    induction l with
    | nil => intro m; simp
    | cons a l ih =>
      intro m
      rw [List.foldl_cons]
      obtain ⟨h1, h2⟩ := ih (logHeader x r m a)
      rw [h1, h2]
      unfold logHeader
      by_cases ha : r.header a = ""
      · simp [ha]
      · simp [ha, Req1.lazyTracef]
  exact h _ m

/-- **C65**.  Whatever the handler does and however it ends, the calls on the request's trace
are: the request line first, the headers, then exactly what the handler logged itself, then
the outcome, with the status and size the interceptor has seen, then one `Finish`, last.  A
panic of the handler goes on to the caller. -/
theorem C65_calls (x : Around W A) (r : HTTPRequest) (w : Resp) (ops : List (HOp W A)) (o : Outcome) :
    (middleware x r w ops o).2 = o ∧
    (middleware x r w ops o).1.calls =
      requestLine x r :: headerLines x r ++ traceCalls ops ++
        [outcomeLine x (reported w ops).1 (reported w ops).2, (x.envFinish, .finish)] := by
  refine ⟨rfl, ?_⟩
  unfold middleware withDefer serve finishCall logOutcome Req1.lazyTracef
  simp only [ops_calls, logHeaders_calls, reported]
  rw [ops_iw ops _ { iw := newInterceptor w, calls := [] } (by simp [logHeaders_calls])]
  simp [requestLine, outcomeLine]

theorem active_append {h h' : Hist W A} (hf : finishedAt h = none) : active (h ++ h') = h ++ active h' := by
  induction h with
  | nil => rfl
  | cons p h ih =>
    obtain ⟨env, c⟩ := p
    cases c <;> simp_all [active, finishedAt]

theorem logs_append (h h' : Hist W A) : logs (h ++ h') = logs h ++ logs h' := by
  induction h with
  | nil => rfl
  | cons p h ih =>
    obtain ⟨env, c⟩ := p
    cases c <;> simp_all [logs]

theorem finishedAt_append {h h' : Hist W A} (hf : finishedAt h = none) :
    finishedAt (h ++ h') = finishedAt h' := by
  induction h with
  | nil => rfl
  | cons p h ih =>
    obtain ⟨env, c⟩ := p
    cases c <;> simp_all [finishedAt]

theorem finishedAt_headers (x : Around W A) (r : HTTPRequest) :
    finishedAt (requestLine x r :: headerLines x r) = none := by
  have : ∀ l : List String, finishedAt (W := W) (A := A) (l.map fun h =>
      (x.envHeader h, .log .lazyTracef "%s: %s" [x.str h, x.str (r.header h)] x.callers)) = none := by
    intro l
    induction l with
    | nil => rfl
    | cons a l ih => simpa [finishedAt] using ih
  simp [requestLine, finishedAt, headerLines, this]

theorem finishedAt_ne {h h' : Hist W A} (hf : finishedAt h' ≠ none) : finishedAt (h ++ h') ≠ none := by
  induction h with
  | nil => exact hf
  | cons p h ih =>
    obtain ⟨env, c⟩ := p
    cases c <;> simp_all [finishedAt]

variable [Sys W A]

theorem trace_run_append (tr : CoreTrace A) (h₁ h₂ : Hist W A) :
    tr.run (h₁ ++ h₂) = (tr.run h₁).bind fun t => t.run h₂ := by
  induction h₁ generalizing tr with
  | nil => rfl
  | cons p h ih =>
    obtain ⟨env, c⟩ := p
    simp only [List.cons_append, CoreTrace.run]
    cases tr.step env c with
    | none => rfl
    | some q => simpa using ih q.1

/-- **C65**, as seen on the trace.  Whatever the handler does, the trace is finished when the
middleware is done, whatever is called on it later. -/
theorem C65_finished (settings : List Setting) (start : Time) (id source category : String)
    (old : CoreTrace A) (x : Around W A) (r : HTTPRequest) (w : Resp) (ops : List (HOp W A))
    (o : Outcome) (later : Hist W A) :
    ∃ tr tr', (fresh settings start id source category old).run (middleware x r w ops o).1.calls = some tr ∧
      tr.run later = some tr' ∧ tr.finished = true ∧ tr'.finished = true := by
  obtain ⟨tr, tr', h1, h2, h3, h4, _⟩ := C09_frozen settings start id source category old
    (middleware x r w ops o).1.calls later (by
      rw [(C65_calls x r w ops o).2]
      apply finishedAt_ne
      simp [outcomeLine, finishedAt])
  exact ⟨tr, tr', h1, h2, h3, h4⟩

/-- **C65**, as seen on the trace.  With a handler that leaves finishing to the middleware and
stays below the limit on events, the events of the trace are those calls: the first one
reports the request line, the last one the outcome, whatever is called on the trace later.
What is missing from the full claim: a handler that finishes the trace itself, or that logs
too many events, loses the outcome (`C65_handler_finishes_violated`, `C65_truncated_violated`). -/
theorem C65_events_partial (settings : List Setting) (start : Time) (id source category : String)
    (old : CoreTrace A) (x : Around W A) (r : HTTPRequest) (w : Resp) (ops : List (HOp W A))
    (o : Outcome) (later : Hist W A) (env : Env W)
    (hops : finishedAt (traceCalls ops) = none) (hset : limitsSet (traceCalls ops) = [])
    (hlim : ((logs (traceCalls ops)).length : Int) + 5 ≤ (Globals.after settings).traceMaxEvents) :
    ∃ tr evs ef el, (fresh settings start id source category old).run
        ((middleware x r w ops o).1.calls ++ later) = some tr ∧
      tr.finished = true ∧
      tr.events' env = some evs ∧
      evs.length = (headerLines x r).length + (logs (traceCalls ops)).length + 2 ∧
      evs.head? = some ef ∧ evs.getLast? = some el ∧
      Reports (Globals.after settings).traceNoStacks ef
        { kind := .lazyTracef, format := "%s %s %s"
          args := [x.str r.remoteAddr, x.str r.method, x.str r.url]
          callers := x.callers, env := x.envLine } ∧
      Reports (Globals.after settings).traceNoStacks el
        { kind := .lazyTracef, format := "HTTP %d, %s, %s"
          args := [x.num (reported w ops).1, x.str (x.humanizeBytes (reported w ops).2), x.str x.took]
          callers := x.callers, env := x.envOutcome } := by
  have hcalls := (C65_calls x r w ops o).2
  have hpre : finishedAt (requestLine x r :: headerLines x r ++ traceCalls ops) = none := by
    rw [finishedAt_append (finishedAt_headers x r)]; exact hops
  have hact : active ((middleware x r w ops o).1.calls ++ later) =
      (requestLine x r :: headerLines x r ++ traceCalls ops) ++
        [outcomeLine x (reported w ops).1 (reported w ops).2] := by
    rw [hcalls, List.append_assoc, active_append hpre]
    simp [outcomeLine, active]
  have hl : ∀ l : List String, logs (W := W) (A := A) (l.map fun h =>
      (x.envHeader h, .log .lazyTracef "%s: %s" [x.str h, x.str (r.header h)] x.callers)) =
      l.map fun h => { kind := .lazyTracef, format := "%s: %s", args := [x.str h, x.str (r.header h)],
                       callers := x.callers, env := x.envHeader h } := by
    intro l
    induction l with
    | nil => rfl
    | cons a l ih => simpa [logs] using ih
  have hhl : (logs (headerLines x r)).length = (headerLines x r).length := by
    unfold headerLines; rw [hl]; simp
  have hh3 : (headerLines x r).length ≤ 3 := by
    unfold headerLines
    rw [List.length_map]
    exact Nat.le_trans (List.length_filter_le _ _) (by simp)
  have hlogged : logged ((middleware x r w ops o).1.calls ++ later) =
      { kind := .lazyTracef, format := "%s %s %s",
        args := [x.str r.remoteAddr, x.str r.method, x.str r.url],
        callers := x.callers, env := x.envLine } ::
      (logs (headerLines x r) ++ logs (traceCalls ops) ++
      [{ kind := .lazyTracef, format := "HTTP %d, %s, %s",
         args := [x.num (reported w ops).1, x.str (x.humanizeBytes (reported w ops).2), x.str x.took],
         callers := x.callers, env := x.envOutcome }]) := by
    unfold logged
    rw [hact, logs_append]
    simp only [List.cons_append]
    conv => lhs; arg 1; unfold requestLine
    simp [logs, logs_append, outcomeLine]
  have hlims : limitsSet (active ((middleware x r w ops o).1.calls ++ later)) = [] := by
    rw [hact]
    have happ : ∀ h h' : Hist W A, limitsSet (h ++ h') = limitsSet h ++ limitsSet h' := by
      intro h h'
      induction h with
      | nil => rfl
      | cons p h ih =>
        obtain ⟨env, c⟩ := p
        cases c <;> simp_all [limitsSet]
    have hh : ∀ l : List String, limitsSet (W := W) (A := A) (l.map fun h =>
        (x.envHeader h, .log .lazyTracef "%s: %s" [x.str h, x.str (r.header h)] x.callers)) = [] := by
      intro l
      induction l with
      | nil => rfl
      | cons a l ih => simpa [limitsSet] using ih
    rw [happ, List.cons_append]
    conv => lhs; arg 1; unfold requestLine
    simp only [limitsSet, happ, hset]
    unfold headerLines
    rw [hh]
    simp [outcomeLine, limitsSet]
  have hlen : (logged ((middleware x r w ops o).1.calls ++ later)).length =
      (headerLines x r).length + (logs (traceCalls ops)).length + 2 := by
    rw [hlogged]; simp [hhl]; omega
  obtain ⟨tr, evs, h1, h2, h3, h4⟩ := C11_complete_in_order settings start id source category old
    ((middleware x r w ops o).1.calls ++ later) (by omega) (by rw [hlims]; simp) env
  have hfin : tr.finished = true := by
    obtain ⟨tr1, tr2, a, b, c, d⟩ := C65_finished settings start id source category old x r w ops o later
    rw [trace_run_append, a] at h1
    simp only [Option.bind_some] at h1
    rw [b] at h1
    cases h1
    exact d
  have hlast : ∀ (l : List Event), l.length = (logged ((middleware x r w ops o).1.calls ++ later)).length →
      ∃ ef el, l.head? = some ef ∧ l.getLast? = some el ∧ l[0]? = some ef ∧ l[l.length - 1]? = some el := by
    intro l hl
    rw [hlen] at hl
    cases l with
    | nil => simp at hl
    | cons a l =>
      exact ⟨a, (a :: l).getLast (by simp), rfl, List.getLast?_eq_some_getLast _, rfl,
        by rw [← List.getLast?_eq_getElem?]; exact List.getLast?_eq_some_getLast _⟩
  obtain ⟨ef, el, e1, e2, e3, e4⟩ := hlast evs h3
  refine ⟨tr, evs, ef, el, h1, hfin, h2, by rw [h3, hlen], e1, e2, h4 0 _ _ e3 (by rw [hlogged]; rfl),
    h4 _ _ _ e4 ?_⟩
  rw [h3, ← List.getLast?_eq_getElem?, hlogged]
  rw [← List.cons_append, List.getLast?_concat]

omit [Sys W A]

/-! ## C66 -/

theorem ops_resp (ops : List (HOp W A)) (m : Req1 W A) :
    (ops.foldl Req1.op m).iw.w = respond m.iw.w ops := by
  induction ops generalizing m with
  | nil => rfl
  | cons op ops ih =>
    rw [List.foldl_cons, ih]
    cases op <;> rfl

theorem writeHeader_body (w : Resp) (c : Int) :
    (w.writeHeader c).1.body = w.body ∧ (w.writeHeader c).1.head = w.head := by
  unfold Resp.writeHeader
  repeat' split
  all_goals exact ⟨rfl, rfl⟩

theorem commit_body (w : Resp) : w.commit.body = w.body ∧ w.commit.head = w.head := by
  unfold Resp.commit
  split
  · exact ⟨rfl, rfl⟩
  · exact writeHeader_body w 200

theorem write_body (w : Resp) (n : Nat) (h : w.head = false) :
    (w.write n).1.body = w.body + (w.write n).2 ∧ (w.write n).1.head = false := by
  obtain ⟨h1, h2⟩ := commit_body w
  rw [h] at h2
  unfold Resp.write
  repeat' split
  all_goals simp_all

theorem ops_bytes (ops : List (HOp W A)) (m : Req1 W A) (h : m.iw.w.head = false) :
    (ops.foldl Req1.op m).iw.n + m.iw.w.body = m.iw.n + (respond m.iw.w ops).body := by
  induction ops generalizing m with
  | nil => rfl
  | cons op ops ih =>
    rw [List.foldl_cons]
    cases op with
    | writeHeader c =>
      have hb := writeHeader_body m.iw.w c
      have := ih (m.op (.writeHeader c)) (by rw [← h]; exact hb.2)
      simp only [Req1.op, Interceptor.writeHeader, hb.1] at this ⊢
      simpa [respond] using this
    | write n =>
      have hb := write_body m.iw.w n h
      have := ih (m.op (.write n)) hb.2
      simp only [Req1.op, Interceptor.write, hb.1] at this ⊢
      simp only [respond]
      omega
    | flush =>
      have hb := commit_body m.iw.w
      have := ih (m.op .flush) (by rw [← h]; exact hb.2)
      simp only [Req1.op, Interceptor.flush, Resp.flush, hb.1] at this ⊢
      simpa [respond, Resp.flush] using this
    | trace env c =>
      have := ih (m.op (.trace env c)) h
      simpa [Req1.op, respond] using this

/-- **C66**, the size.  Unless the request is a HEAD request, the number of bytes the middleware
reports is the size of the body the client receives: for every sequence of calls, with or
without a status, over the declared length or not. -/
theorem C66_bytes_partial (w : Resp) (hw : w.body = 0) (hh : w.head = false) (ops : List (HOp W A)) :
    (reported w ops).2 = (received w ops).2 := by
  have := ops_bytes ops ({ iw := newInterceptor w, calls := [] } : Req1 W A) hh
  simp only [newInterceptor, hw] at this
  simp only [reported, received, Resp.finishRequest, (commit_body _).1, Interceptor.written, newInterceptor]
  omega

/-- A status code that can start a response: not a purely informational one. -/
def FinalCode (c : Int) : Prop := c = 101 ∨ (200 ≤ c ∧ c ≤ 999)

/-- Handlers that set the status, if they do, before anything else. -/
inductive StatusFirst : List (HOp W A) → Prop
  /-- No call of `WriteHeader` at all. -/
  | never {ops} (h : ∀ c, HOp.writeHeader c ∉ ops) : StatusFirst ops
  /-- `WriteHeader` before any `Write` or `Flush`; what follows does not matter. -/
  | first {ops pre post c} (h : ops = pre ++ HOp.writeHeader c :: post)
      (hpre : ∀ op ∈ pre, ∃ env call, op = HOp.trace env call) (hc : FinalCode c) : StatusFirst ops

theorem respond_append (w : Resp) (a b : List (HOp W A)) :
    respond w (a ++ b) = respond (respond w a) b := by
  induction a generalizing w with
  | nil => rfl
  | cons op a ih => cases op <;> simp [respond, ih]

theorem commit_wrote {w : Resp} (h : w.wroteHeader = true) : w.commit = w := by
  simp [Resp.commit, h]

theorem respond_committed (ops : List (HOp W A)) (w : Resp) (h : w.wroteHeader = true) :
    (respond w ops).wroteHeader = true ∧ (respond w ops).status = w.status := by
  induction ops generalizing w with
  | nil => exact ⟨h, rfl⟩
  | cons op ops ih =>
    cases op with
    | writeHeader c =>
      have : (w.writeHeader c).1 = w := by simp [Resp.writeHeader, h]
      simpa [respond, this] using ih w h
    | write n =>
      have hw : (w.write n).1.wroteHeader = true ∧ (w.write n).1.status = w.status := by
        unfold Resp.write
        rw [commit_wrote h]
        repeat' split
        all_goals exact ⟨h, rfl⟩
      have := ih (w.write n).1 hw.1
      simp only [respond]
      exact ⟨this.1, by rw [this.2, hw.2]⟩
    | flush => simpa [respond, Resp.flush, commit_wrote h] using ih w h
    | trace env c => simpa [respond] using ih w h

theorem commit_fresh {w : Resp} (h : w.wroteHeader = false) :
    w.commit.wroteHeader = true ∧ w.commit.status = 200 := by
  simp [Resp.commit, h, Resp.writeHeader]

theorem commit_status (w : Resp) (h : w.wroteHeader = true → w.status = 200) :
    w.commit.wroteHeader = true ∧ w.commit.status = 200 := by
  cases hw : w.wroteHeader with
  | false => exact commit_fresh hw
  | true => rw [commit_wrote hw]; exact ⟨hw, h hw⟩

theorem respond_default (ops : List (HOp W A)) (w : Resp) (h : w.wroteHeader = true → w.status = 200)
    (hn : ∀ c, HOp.writeHeader c ∉ ops) : (respond w ops).commit.status = 200 := by
  induction ops generalizing w with
  | nil => exact (commit_status w h).2
  | cons op ops ih =>
    have hn' : ∀ c, HOp.writeHeader c ∉ ops := fun c hc => hn c (List.mem_cons_of_mem _ hc)
    cases op with
    | writeHeader c => exact absurd (List.mem_cons_self ..) (hn c)
    | write n =>
      have hc := commit_status w h
      refine ih _ (fun _ => ?_) hn'
      unfold Resp.write
      repeat' split
      all_goals exact hc.2
    | flush => exact ih _ (fun _ => (commit_status w h).2) hn'
    | trace env c => exact ih w h hn'

theorem ops_code (ops : List (HOp W A)) (m : Req1 W A) (h : m.iw.code ≠ 0) :
    (ops.foldl Req1.op m).iw.code = m.iw.code := by
  induction ops generalizing m with
  | nil => rfl
  | cons op ops ih =>
    rw [List.foldl_cons]
    cases op with
    | writeHeader c =>
      have hc : (m.op (.writeHeader c)).iw.code = m.iw.code := by
        simp [Req1.op, Interceptor.writeHeader, h]
      rw [ih _ (by rw [hc]; exact h), hc]
    | write n => exact ih (m.op (.write n)) h
    | flush => exact ih (m.op .flush) h
    | trace env c => exact ih (m.op (.trace env c)) h

theorem ops_code_never (ops : List (HOp W A)) (m : Req1 W A) (hn : ∀ c, HOp.writeHeader c ∉ ops) :
    (ops.foldl Req1.op m).iw.code = m.iw.code := by
  induction ops generalizing m with
  | nil => rfl
  | cons op ops ih =>
    have hn' : ∀ c, HOp.writeHeader c ∉ ops := fun c hc => hn c (List.mem_cons_of_mem _ hc)
    rw [List.foldl_cons]
    cases op with
    | writeHeader c => exact absurd (List.mem_cons_self ..) (hn c)
    | write n => exact ih (m.op (.write n)) hn'
    | flush => exact ih (m.op .flush) hn'
    | trace env c => exact ih (m.op (.trace env c)) hn'

/-- **C66**, the status.  For handlers that set the status before they write or flush, or not at
all, and do return, the reported status is the one the client receives; later calls of
`WriteHeader` change neither.  What is missing from the full claim are the cases below. -/
theorem C66_status_partial (w : Resp) (hw : w.wroteHeader = false) (ops : List (HOp W A))
    (h : StatusFirst ops) : (reported w ops).1 = (received w ops).1 := by
  cases h with
  | never hn =>
    simp only [reported, received, Resp.finishRequest, Interceptor.getCode]
    rw [ops_code_never ops _ hn, respond_default ops w (by simp [hw]) hn]
    simp [newInterceptor]
  | @first pre post c e hpre hc =>
    subst e
    have htr : ∀ (pre : List (HOp W A)), (∀ op ∈ pre, ∃ env call, op = HOp.trace env call) →
        (∀ w, respond w pre = w) ∧ ∀ m : Req1 W A, (pre.foldl Req1.op m).iw = m.iw := by
      intro pre
      induction pre with
      | nil => intro _; exact ⟨fun _ => rfl, fun _ => rfl⟩
      | cons op pre ih =>
        intro hp
        obtain ⟨env, call, rfl⟩ := hp op (List.mem_cons_self ..)
        obtain ⟨i1, i2⟩ := ih (fun o ho => hp o (List.mem_cons_of_mem _ ho))
        exact ⟨fun w => i1 w, fun m => by rw [List.foldl_cons, i2]; rfl⟩
    obtain ⟨t1, t2⟩ := htr pre hpre
    have hw' : (w.writeHeader c).1 = { w with wroteHeader := true, status := c } := by
      unfold Resp.writeHeader FinalCode at *
      have h1 : ¬ (c < 100 ∨ c > 999) := by omega
      have h2 : ¬ (c ≤ 199 ∧ c ≠ 101) := by omega
      simp [hw, h1, h2]
    have hc0 : c ≠ 0 := by unfold FinalCode at hc; omega
    have hr : (received w (pre ++ .writeHeader c :: post)).1 = c := by
      simp only [received, Resp.finishRequest, respond_append, t1, respond, hw']
      obtain ⟨a, b⟩ := respond_committed post { w with wroteHeader := true, status := c } rfl
      rw [commit_wrote a, b]
    rw [hr]
    simp only [reported, List.foldl_append, List.foldl_cons]
    generalize hm : Req1.op (pre.foldl Req1.op ({ iw := newInterceptor w, calls := [] } : Req1 W A))
      (.writeHeader c) = m
    have hmc : m.iw.code = c := by
      rw [← hm]
      simp [Req1.op, Interceptor.writeHeader, t2, newInterceptor]
    simp only [Interceptor.getCode]
    rw [ops_code post m (by rw [hmc]; exact hc0), hmc]
    simp [hc0]

/-- The status that the first `WriteHeader` asked for. -/
def askedFirst : List (HOp W A) → Option Int
  | [] => none
  | .writeHeader c :: ops => if c = 0 then askedFirst ops else some c
  | _ :: ops => askedFirst ops

/-- The status that begins the response: 200 if a `Write` or a `Flush` comes first. -/
def begins : List (HOp W A) → Int
  | [] => 200
  | .writeHeader c :: ops => if c = 101 ∨ (200 ≤ c ∧ c ≤ 999) then c else begins ops
  | .write _ :: _ => 200
  | .flush :: _ => 200
  | .trace _ _ :: ops => begins ops

theorem reported_status (ops : List (HOp W A)) (m : Req1 W A) (h : m.iw.code = 0) :
    (ops.foldl Req1.op m).iw.getCode = (askedFirst ops).getD 200 := by
  induction ops generalizing m with
  | nil => simp [Interceptor.getCode, h, askedFirst]
  | cons op ops ih =>
    rw [List.foldl_cons]
    cases op with
    | writeHeader c =>
      have hc : (m.op (.writeHeader c)).iw.code = c := by simp [Req1.op, Interceptor.writeHeader, h]
      by_cases h0 : c = 0
      · rw [ih _ (by rw [hc, h0]), askedFirst, if_pos h0]
      · unfold Interceptor.getCode
        rw [ops_code ops _ (by rw [hc]; exact h0), hc, if_neg h0, askedFirst, if_neg h0]
        rfl
    | write n => exact ih (m.op (.write n)) h
    | flush => exact ih (m.op .flush) h
    | trace env c => exact ih (m.op (.trace env c)) h

theorem received_status (ops : List (HOp W A)) (w : Resp) (h : w.wroteHeader = false) :
    (respond w ops).commit.status = begins ops := by
  have committed : ∀ (ops : List (HOp W A)) (w : Resp), w.wroteHeader = true → (respond w ops).commit.status = w.status := by
    intro ops w hw
    obtain ⟨a, b⟩ := respond_committed ops w hw
    rw [commit_wrote a, b]
  induction ops generalizing w with
  | nil => exact (commit_fresh h).2
  | cons op ops ih =>
    cases op with
    | writeHeader c =>
      simp only [respond, begins]
      by_cases hc : c = 101 ∨ (200 ≤ c ∧ c ≤ 999)
      · have hw' : (w.writeHeader c).1 = { w with wroteHeader := true, status := c } := by
          unfold Resp.writeHeader
          have h1 : ¬ (c < 100 ∨ c > 999) := by omega
          have h2 : ¬ (c ≤ 199 ∧ c ≠ 101) := by omega
          simp [h, h1, h2]
        rw [if_pos hc, hw', committed ops _ rfl]
      · rw [if_neg hc]
        refine ih _ ?_
        unfold Resp.writeHeader
        rw [if_neg (by simp [h])]
        split
        · exact h
        · rw [if_pos (by omega)]
          exact h
    | write n =>
      have hw : (w.write n).1.wroteHeader = true ∧ (w.write n).1.status = 200 := by
        have hc := commit_fresh h
        unfold Resp.write
        repeat' split
        all_goals exact hc
      simp only [respond, begins]
      rw [committed ops _ hw.1, hw.2]
    | flush =>
      simp only [respond, begins, Resp.flush]
      rw [committed ops _ (commit_fresh h).1, (commit_fresh h).2]
    | trace env c => exact ih w h

theorem respond_head (ops : List (HOp W A)) (w : Resp) (h : w.head = true) : (respond w ops).body = w.body := by
  have commit : ∀ w : Resp, w.commit.body = w.body ∧ w.commit.head = w.head := commit_body
  induction ops generalizing w with
  | nil => rfl
  | cons op ops ih =>
    cases op with
    | writeHeader c =>
      have hb := writeHeader_body w c
      simp only [respond]
      rw [ih _ (hb.2.trans h), hb.1]
    | write n =>
      have hb : (w.write n).1.body = w.body ∧ (w.write n).1.head = true := by
        obtain ⟨h1, h2⟩ := commit w
        rw [h] at h2
        unfold Resp.write
        repeat' split
        all_goals simp_all
      simp only [respond]
      rw [ih _ hb.2, hb.1]
    | flush =>
      simp only [respond, Resp.flush]
      rw [ih _ ((commit w).2.trans h), (commit w).1]
    | trace env c => exact ih w h

/-- **C66**, exactly: for every handler that returns, the status reported is the one it asked for first, the status received is
the one that began the response, and the sizes are the same unless it is a HEAD request whose handler wrote something. -/
theorem C66_exact (w : Resp) (hw : w.wroteHeader = false) (hb : w.body = 0) (ops : List (HOp W A)) :
    ((reported w ops).1 = (received w ops).1 ↔ (askedFirst ops).getD 200 = begins ops) ∧
    ((reported w ops).2 = (received w ops).2 ↔ w.head = false ∨ (reported w ops).2 = 0) := by
  have h1 : (reported w ops).1 = (askedFirst ops).getD 200 := reported_status ops _ rfl
  have h2 : (received w ops).1 = begins ops := received_status ops w hw
  refine ⟨by rw [h1, h2], ?_⟩
  cases hh : w.head with
  | false => exact ⟨fun _ => .inl rfl, fun _ => C66_bytes_partial w hb hh ops⟩
  | true =>
    have h3 : (received w ops).2 = 0 := by
      simp only [received, Resp.finishRequest, (commit_body _).1]
      rw [respond_head ops w hh, hb]
    rw [h3]
    simp

/-- **C66 fails** for a status set after the first write: the middleware reports the status that
was never sent. -/
theorem C66_late_status_violated (n : Nat) (c : Int) (h0 : c ≠ 0) :
    (reported {} ([.write n, .writeHeader c] : List (HOp W A))).1 = c ∧
    (received {} ([.write n, .writeHeader c] : List (HOp W A))).1 = 200 ∧
    (reported {} ([.flush, .writeHeader c] : List (HOp W A))).1 = c ∧
    (received {} ([.flush, .writeHeader c] : List (HOp W A))).1 = 200 := by
  have hs : ∀ ops : List (HOp W A), (respond (({} : Resp).write n).1 ops).status = 200 ∧
      (respond (({} : Resp).write n).1 ops).wroteHeader = true := by
    intro ops
    have : (({} : Resp).write n).1.wroteHeader = true ∧ (({} : Resp).write n).1.status = 200 := by
      unfold Resp.write
      repeat' split
      all_goals simp [Resp.commit, Resp.writeHeader]
    obtain ⟨a, b⟩ := respond_committed ops _ this.1
    exact ⟨by rw [b, this.2], a⟩
  refine ⟨?_, ?_, ?_, ?_⟩
  · simp [reported, Req1.op, Interceptor.write, Interceptor.writeHeader, newInterceptor, Interceptor.getCode, h0]
  · simp only [received, Resp.finishRequest]
    rw [respond, commit_wrote (hs _).2, (hs _).1]
  · simp [reported, Req1.op, Interceptor.flush, Interceptor.writeHeader, newInterceptor, Interceptor.getCode, h0]
  · simp [received, respond, Resp.flush, Resp.commit, Resp.writeHeader, Resp.finishRequest]

/-- **C66 fails** for informational responses: with early hints (103) sent first, the
middleware reports 103, whatever the response is. -/
theorem C66_informational_violated (c : Int) (h1 : 200 ≤ c) (h2 : c ≤ 999) :
    (reported {} ([.writeHeader 103, .writeHeader c] : List (HOp W A))).1 = 103 ∧
    (received {} ([.writeHeader 103, .writeHeader c] : List (HOp W A))).1 = c := by
  refine ⟨by simp [reported, Req1.op, Interceptor.writeHeader, newInterceptor, Interceptor.getCode], ?_⟩
  have a1 : ¬ (c < 100 ∨ 999 < c) := by omega
  have a2 : ¬ (c ≤ 199 ∧ ¬ c = 101) := by omega
  simp [received, respond, Resp.commit, Resp.writeHeader, Resp.finishRequest, a1, a2]

/-- **C66 fails** for HEAD requests: the middleware reports the bytes the handler wrote, none of
which are sent. -/
theorem C66_head_violated (n : Nat) (h : 0 < n) :
    (reported { head := true } ([.write n] : List (HOp W A))).2 = n ∧
    (received { head := true } ([.write n] : List (HOp W A))).2 = 0 := by
  have hn : n ≠ 0 := by omega
  constructor <;>
  simp [reported, received, Req1.op, Interceptor.write, newInterceptor, Interceptor.written, respond,
    Resp.write, Resp.commit, Resp.writeHeader, hn, bodyAllowed, Resp.overLength, Resp.finishRequest]

/-- **C66 fails** for a handler that panics before it has written anything: the middleware logs
the outcome 200, while the server has sent no status and closes the connection. -/
theorem C66_panic_violated (x : Around W A) (r : HTTPRequest) :
    (middleware x r {} [] .panicked).2 = .panicked ∧
    outcomeLine x 200 0 ∈ (middleware x r {} ([] : List (HOp W A)) .panicked).1.calls ∧
    (respond {} ([] : List (HOp W A))).wroteHeader = false := by
  refine ⟨rfl, ?_, rfl⟩
  rw [(C65_calls x r {} [] .panicked).2]
  simp [reported, newInterceptor, Interceptor.getCode, Interceptor.written]

/-! ## Witnesses -/

section Examples

/-- Arguments of the examples. -/
inductive ExArg | s (x : String) | n (x : Int)
deriving DecidableEq

instance exSys : Sys Unit ExArg := ⟨fun _ f args => f ++ String.join (args.map fun
  | .s x => "," ++ x
  | .n x => "," ++ toString x)⟩

def exAround : Around Unit ExArg :=
  { str := .s, num := .n, callers := []
    envLine := ⟨⟨1, none⟩, ()⟩, envHeader := fun _ => ⟨⟨2, none⟩, ()⟩
    envOutcome := ⟨⟨9, none⟩, ()⟩, envFinish := ⟨⟨10, none⟩, ()⟩
    took := "8ns", humanizeBytes := fun n => toString n ++ "B" }

/-- Early hints, then a page: the status reported is not the one received, the size is. -/
example : (askedFirst ([.writeHeader 103, .writeHeader 200, .write 7] : List (HOp Unit ExArg))).getD 200 ≠
    begins ([.writeHeader 103, .writeHeader 200, .write 7] : List (HOp Unit ExArg)) := by decide

def exRequest : HTTPRequest :=
  { remoteAddr := "1.2.3.4:5", method := "GET", url := "/x"
    header := fun h => if h = "Accept" then "text/html" else "" }

def exOps : List (HOp Unit ExArg) :=
  [.trace ⟨⟨3, none⟩, ()⟩ (.log .tracef "hello" [] []), .writeHeader 404, .write 7, .writeHeader 500, .write 5]

/-- A handler that logs, answers 404 with twelve bytes, and panics. -/
example : (((fresh [] ⟨0, none⟩ "id" "src" "cat" zeroTrace).run
      (middleware exAround exRequest {} exOps .panicked).1.calls).bind fun tr =>
        (tr.events' ⟨⟨20, none⟩, ()⟩).map fun evs => (tr.finished, evs.map (·.what))) =
    some (true, ["%s %s %s,1.2.3.4:5,GET,/x", "%s: %s,Accept,text/html", "hello", "HTTP %d, %s, %s,404,12B,8ns"]) := by
  decide +kernel

example : finishedAt (traceCalls exOps) = none ∧ limitsSet (traceCalls exOps) = [] ∧
    ((logs (traceCalls exOps)).length : Int) + 5 ≤ (Globals.after []).traceMaxEvents ∧
    reported {} exOps = (404, 12) ∧ received {} exOps = (404, 12) := by decide +kernel

example : StatusFirst exOps :=
  .first (pre := [_]) (post := [_, _, _]) rfl
    (fun op h => by simp at h; exact ⟨_, _, h⟩) (Or.inr ⟨by decide, by decide⟩)

/-- The outcome is lost when the handler finishes the trace, as a nested use of the middleware on
the same trace would. -/
theorem C65_handler_finishes_violated :
    (((fresh [] ⟨0, none⟩ "id" "src" "cat" zeroTrace).run
      (middleware exAround exRequest {} [.trace ⟨⟨3, none⟩, ()⟩ .finish, .writeHeader 500] .returned).1.calls).bind
        fun tr => (tr.events' ⟨⟨20, none⟩, ()⟩).map fun evs => evs.map (·.what)) =
    some ["%s %s %s,1.2.3.4:5,GET,/x", "%s: %s,Accept,text/html"] := by decide +kernel

/-- The request line and the outcome are lost when the handler logs more events than the limit. -/
theorem C65_truncated_violated :
    (((fresh [.maxEvents 10] ⟨0, none⟩ "id" "src" "cat" zeroTrace).run
      (middleware exAround exRequest {} (List.replicate 10 (.trace ⟨⟨3, none⟩, ()⟩ (.log .tracef "e" [] [])))
        .returned).1.calls).bind
        fun tr => (tr.events' ⟨⟨20, none⟩, ()⟩).map fun evs => evs.map (·.what)) =
    some ["%s: %s,Accept,text/html", "e", "e", "e", "e", "e", "e", "e", "e", "(truncated event count 3)"] := by
  decide +kernel

end Examples

end Trc.Web
