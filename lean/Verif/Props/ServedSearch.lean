import Verif.Web.ServedSearch
import Verif.Props.Handling
import Verif.Props.MiddlewareEnd

/-!
# C151: the trace of a search that is served behind the middleware, from its first event to its last
-/

namespace Trc.Wrap

open Core Core.Spec Fmt

section
variable {W A : Type} [Render W A] [Arg A] [Humanize] {v : HandlerValues A}

/-- A trace that gets nothing but what is told, and then is finished or not: its events are what is told. -/
theorem tells_ended (tail : List (Call A)) (htail : Ending tail) (g : Globals) (start : Time) (id source category : String) (w w' : World A)
    (ex : List (AEnv W × Act A)) (tr : Tr A) (acts : List (Act A)) (texts : List (Bool × String)) (htells : GivesTexts W tr acts texts)
    (hex : callsIn tr.root (ex.map Prod.snd) = callsIn tr.root acts ++ tail)
    (hm : ∀ p ∈ ex, notMake tr.root p.2) (hrun : w.run ex = some w')
    (ht : w.traces tr.root = some (newCoreTrace g start id source category zeroTrace))
    (hlen : (texts.length : Int) ≤ g.traceMaxEvents) :
    ∃ t, w'.traces tr.root = some t ∧ t.id = id ∧ t.category = category ∧ t.finished = !tail.isEmpty ∧
      (t.errored = true ↔ ∃ x ∈ texts, x.1 = true) ∧
      ∀ (env : Env W) evs, t.events' env = some evs → evs.map (fun ev => (ev.isError, ev.what)) = texts := by
  obtain ⟨saids, s1, s2⟩ := htells
  have hsl := s2.length_eq
  obtain ⟨t, calls, ended, t1, t2, t3, t4, i1, i2, i3, i4, i5, t5, -, t6⟩ :=
    said_ended tail htail g start id source category w w' ex saids tr.root (by rw [hex, s1]) hm hrun ht (by rw [hsl]; exact hlen)
  refine ⟨t, t1, i1, i3, i5, ?_, ?_⟩
  · rw [t5]
    clear hsl s1 t5 t6 t3 hlen
    induction s2 with
    | nil => simp
    | cons h _ ih =>
      simp only [List.exists_mem_cons_iff]
      rw [ih, h.1]
  · intro env evs hevs
    obtain ⟨l1, l2⟩ := t6 env evs hevs
    apply List.ext_getElem (by rw [List.length_map]; omega)
    intro i i1 i2
    rw [List.length_map] at i1
    have hi : i < saids.length := by omega
    have hc' : i < calls.length := by omega
    have hc : (callsOn tr.root ex)[i]? = some calls[i] := by
      rw [t2, List.getElem?_append_left hc', List.getElem?_eq_getElem hc']
    have r := l2 _ _ _ _ (List.getElem?_eq_getElem i1) (List.getElem?_eq_getElem hi) hc
    have hrel := (List.forall₂_iff_get.mp s2).2 i hi i2
    rw [List.getElem_map]
    obtain ⟨m', hm'⟩ := r.2.2.2.2
    exact Prod.ext (r.2.1.trans hrel.1) (hm'.trans (hrel.2 m'))

end

end Trc.Wrap

namespace Trc.Web

open Core Core.Spec Wrap Fmt

/-! ## Specification -/

/-- The number of bytes of the response to a search. -/
def answerBytes (name : String) : Rendering → Nat
  | .json (.ok n) => n
  | .json (.error _) => 38
  | .html d _ =>
    match pageError name d, d.execute with
    | none, .ok n => n
    | none, .error _ => 0
    | some e, _ => 33 + e.utf8ByteSize

/-- The lines that the middleware adds in front. -/
def requestLines (r : HTTPRequest) : List (Bool × String) :=
  (false, r.remoteAddr ++ " " ++ r.method ++ " " ++ r.url) :: (headerTexts r).map fun s => (false, s)

section
variable {W A : Type} [Render W A] [Arg A] [Humanize] {v : HandlerValues A}

omit [Arg A] [Humanize] in
theorem page_error_bytes (e : String) : (errorPage e).utf8ByteSize = 33 + e.utf8ByteSize := by
  have h1 : "<html><body><h1>Error</h1><p>".utf8ByteSize = 29 := by decide +kernel
  have h2 : "</p>".utf8ByteSize = 4 := by decide +kernel
  unfold errorPage
  generalize "<html><body><h1>Error</h1><p>" = x at h1 ⊢
  generalize "</p>" = y at h2 ⊢
  rw [String.utf8ByteSize_append, String.utf8ByteSize_append, h1, h2]
  omega

omit [Arg A] [Humanize] in
theorem json_error_bytes : errorJSON.utf8ByteSize = 38 := by decide +kernel

omit [Humanize] [Render W A] in
theorem lines_result (v : HandlerValues A) (name : String) (d : Drawing) : (templateLines v name d).2 =
    match pageError name d with
    | some e => .error e
    | none => d.execute := by
  obtain ⟨parse, files, parseFiles, found, execute⟩ := d
  cases parse with
  | some e => simp [templateLines, pageError]
  | none =>
    cases files with
    | nil => cases found <;> cases execute <;> simp [templateLines, pageError]
    | cons f fs => cases parseFiles <;> cases found <;> cases execute <;> simp [templateLines, pageError]

omit [Arg A] [Humanize] in
theorem page_executed (name : String) (d : Drawing) (h : pageError name d = none) : ∃ n, d.execute = .ok n := by
  obtain ⟨parse, files, parseFiles, found, execute⟩ := d
  cases execute with
  | ok n => exact ⟨n, rfl⟩
  | error e =>
    exfalso
    cases parse with
    | some e => simp [pageError] at h
    | none => cases files <;> cases parseFiles <;> cases found <;> simp [pageError] at h

omit [Humanize] [Render W A] in
theorem bodySize_eq (v : HandlerValues A) (view : Rendering) : bodySize v view = answerBytes "traces.html" view := by
  cases view with
  | json enc =>
    cases enc with
    | ok n => rfl
    | error e => exact json_error_bytes
  | html d took =>
    simp only [bodySize, answerBytes, lines_result]
    cases hp : pageError "traces.html" d with
    | some e => exact page_error_bytes e
    | none =>
      obtain ⟨n, hn⟩ := page_executed _ _ hp
      rw [hn]

omit [Humanize] in
theorem first_texts (hstr : ∀ (m : W) s, Render.arg m [] 's' (Arg.str s : A) = s.toList) {ctx : Ctx A} {tr : Tr A} (hg : maybeGet ctx = some tr)
    (hu : tr.unprefixed) (r : HTTPRequest) (stack : List StdFrame) :
    GivesTexts W tr ((firstOwn ctx r stack).flatMap Line.acts) (requestLines r) := by
  have own' := fun (format : String) (args : List A) (text : String) (h : ∀ m : W, sprintf m format args = text) =>
    tells_log (W := W) (.base : Under tr tr []) hu none_fits .lazyTracef format args stack text (fun m => by rw [h m]; simp [prefixTexts])
  have hs : ∀ hs : List String, GivesTexts W tr
      (((hs.filter fun h => r.header h ≠ "").map fun h => own ctx stack "%s: %s" [Arg.str h, Arg.str (r.header h)]).flatMap Line.acts)
      (((hs.filter fun h => r.header h ≠ "").map fun h => h ++ ": " ++ r.header h).map fun s => (false, s)) := by
    intro hs
    induction hs with
    | nil => exact tells_nil tr
    | cons h hs ih =>
      by_cases hh : r.header h ≠ ""
      · simp only [List.filter_cons, hh, decide_true, if_true, List.map_cons, List.flatMap_cons, own_acts hg, ne_eq, not_false_eq_true]
        exact (own' _ _ _ fun m => text_header hstr m h (r.header h)).append ih
      · have : decide (r.header h ≠ "") = false := by simpa using hh
        simp only [List.filter_cons, this, Bool.false_eq_true, if_false]
        exact ih
  have := (own' _ _ _ fun m => text_request hstr m r.remoteAddr r.method r.url).append (hs ["User-Agent", "Accept", "Content-Type"])
  simpa only [firstOwn, List.flatMap_cons, own_acts hg, requestLines, headerTexts, headerOwn, headerNames, List.singleton_append, isErr] using this

omit [Humanize] in
theorem last_texts (hstr : ∀ (m : W) s, Render.arg m [] 's' (Arg.str s : A) = s.toList) (num : Int → A)
    (hnum : ∀ (m : W) n, Render.arg m [] 'd' (num n) = (toString n).toList) {ctx : Ctx A} {tr : Tr A} (hg : maybeGet ctx = some tr)
    (hu : tr.unprefixed) (code : Int) (bytes : Nat) (took : Duration) (stack : List StdFrame) :
    GivesTexts W tr (lastOwn ctx num code bytes took stack).acts [(false, outcomeText code bytes took)] := by
  rw [lastOwn, own_acts hg]
  exact tells_log (W := W) (.base : Under tr tr []) hu none_fits .lazyTracef _ _ stack _ fun m => by
    rw [text_outcome hstr num hnum]; simp [prefixTexts, outcomeText]

omit [Arg A] [Humanize] in
/-- What the middleware reports, and the client gets, of a handler that sets the status and writes once. -/
theorem once_reported (resp : Resp) (h1 : resp.wroteHeader = false) (h2 : resp.contentLength = none) (status : Int)
    (hs : 200 ≤ status ∧ status ≤ 999 ∧ status ≠ 204 ∧ status ≠ 304) (n : Nat) (acts : List (Act A)) :
    reported resp (onWriter [.acts acts, .writeHeader status, .write n]) = (status, n) ∧
    (resp.head = false → resp.body = 0 → received resp (onWriter [.acts acts, .writeHeader status, .write n]) = (status, n)) := by
  obtain ⟨a, b, c, d⟩ := hs
  have hw : resp.writeHeader status = ({ resp with wroteHeader := true, status }, false) := by
    unfold Resp.writeHeader
    rw [h1, if_neg (by simp), if_neg (by omega), if_neg (by omega)]
  have hb : bodyAllowed status = true := by
    unfold bodyAllowed
    have : ¬ (100 ≤ status ∧ status ≤ 199) := by omega
    simp [this, c, d]
  have hne : status ≠ 0 := by omega
  constructor
  · simp only [reported, onWriter, List.filterMap_cons, List.filterMap_nil, List.foldl_cons, List.foldl_nil, Req1.op, newInterceptor, Interceptor.writeHeader,
      Interceptor.write, Interceptor.getCode, Interceptor.written, hw, if_true, hne, if_false, Resp.write, Resp.commit, hb, Resp.overLength, h2]
    by_cases hn : n = 0
    · simp [hn]
    · by_cases hh : resp.head = true <;> simp [hn, hh]
  · intro hh hbody
    simp only [received, respond, onWriter, List.filterMap_cons, List.filterMap_nil, hw, if_true, Resp.write, Resp.commit,
      Resp.finishRequest, hb, Resp.overLength, h2, hh, hbody]
    by_cases hn : n = 0
    · simp [hn]
    · simp [hn]

/-- The trace of a request that has been served: what the handler tells is between the lines of the middleware. -/
theorem served_told (hstr : ∀ (m : W) s, Render.arg m [] 's' (Arg.str s : A) = s.toList) (num : Int → A)
    (hnum : ∀ (m : W) n, Render.arg m [] 'd' (num n) = (toString n).toList) (g : Globals) (start : Time) (id source category : String) (w w' : World A)
    (ex : List (AEnv W × Act A)) (ctx : Ctx A) (tr : Tr A) (hg : maybeGet ctx = some tr) (hu : tr.unprefixed)
    (r : HTTPRequest) (resp : Resp) (stack : List StdFrame) (next : Ctx A → List (Does A)) (o : Outcome) (took : Duration)
    (acts : List (Act A)) (texts : List (Bool × String)) (htells : GivesTexts W tr acts texts)
    (status : Int) (n : Nat) (hnext : next ctx = [.acts acts, .writeHeader status, .write n])
    (hrep : reported resp (onWriter (next ctx)) = (status, n))
    (hex : callsIn tr.root (ex.map Prod.snd) = callsIn tr.root (handle (ctx, tr, []) num r resp stack next o took).1.acts)
    (hm : ∀ p ∈ ex, notMake tr.root p.2) (hrun : w.run ex = some w')
    (ht : w.traces tr.root = some (newCoreTrace g start id source category zeroTrace))
    (hlen : (((headerTexts r).length + texts.length + 2 : Nat) : Int) ≤ g.traceMaxEvents) :
    ∃ t, w'.traces tr.root = some t ∧ t.id = id ∧ t.category = category ∧ t.finished = true ∧
      (t.errored = true ↔ ∃ x ∈ texts, x.1 = true) ∧
      ∀ (env : Env W) evs, t.events' env = some evs →
        evs.map (fun ev => (ev.isError, ev.what)) = requestLines r ++ texts ++ [(false, outcomeText status n took)] := by
  have hall := ((first_texts hstr hg hu r stack).append htells).append (last_texts hstr num hnum hg hu status n took stack)
  have hacts := handle_acts (made := (ctx, tr, [])) hg num r resp stack next o took
  simp only [hrep] at hacts
  have helse : elseActs (next ctx) = acts := by rw [hnext]; simp [elseActs]
  rw [helse, List.nil_append] at hacts
  obtain ⟨t, t1, t2, t3, t4, t5, t6⟩ := tells_ended [.finish] (by simp [Ending, isRead]) g start id source category w w' ex tr _ _ hall
    (by rw [hex, hacts, callsIn_append, finishActs_calls]) hm hrun ht (by
      refine Int.le_trans ?_ hlen
      simp only [requestLines, List.length_append, List.length_cons, List.length_map, List.length_nil]
      omega)
  refine ⟨t, t1, t2, t3, t4, ?_, t6⟩
  rw [t5]
  simp only [List.mem_append, List.mem_singleton]
  constructor
  · rintro ⟨x, (hx | hx) | rfl, e⟩
    · simp only [requestLines, List.mem_cons, List.mem_map] at hx
      rcases hx with rfl | ⟨_, _, rfl⟩ <;> cases e
    · exact ⟨x, hx, e⟩
    · cases e
  · rintro ⟨x, hx, e⟩
    exact ⟨x, Or.inl (Or.inr hx), e⟩

/-- What the search handler does of a request it can read, and what its trace is told. -/
theorem search_serves [Nonempty W] (hv : v.Rendered W) (ctx : Ctx A) (tr : Tr A) (hg : maybeGet ctx = some tr) (hu : tr.unprefixed)
    (compile : Compile) (orphan : Nat) (raw req : SearchRequest) (problems : List String) (hn : raw.normalize compile = some (req, problems))
    (search : Ctx A → SearchRequest → List (Act A)) (view : Rendering)
    (s : Srch) (lines : List (Logged A)) (answer : Answer) (hs : Searches v.toValues req.limit [] ctx s lines answer)
    (hsearch : search ctx req = (lines.map Logged.line).flatMap Line.acts) (stack' : List StdFrame)
    (next : Ctx A → List (Does A)) (hnext : searchHandler v compile orphan stack' (.ok raw) search view ctx = some (next ctx)) :
    ∃ (status : Int) (acts : List (Act A)) (es : List (Bool × String)), (status = 200 ∨ status = 500) ∧
      (status = 500 ↔ view.fails "traces.html") ∧ (status = 200 ↔ ¬ view.fails "traces.html") ∧
      next ctx = [.acts acts, .writeHeader status, .write (answerBytes "traces.html" view)] ∧
      es.Perm (s.report req.limit) ∧ es.getLast? = (s.report req.limit).getLast? ∧
      GivesTexts W tr acts ((false, "search request " ++ requestString req) :: es ++ view.report "traces.html") := by
  obtain ⟨m₀⟩ := (inferInstance : Nonempty W)
  obtain ⟨a1, -, a3⟩ := searches_spec (W := W) hv.values hs
  have hun : (s.report req.limit).map (under []) = s.report req.limit := by
    have : under [] = _root_.id := by funext x; simp [under, idText]
    rw [this, List.map_id]
  simp only [hun] at a3
  obtain ⟨r1, r2, r3⟩ := tells_render hv hg hu orphan stack' "traces.html" view
  have hget : Wrap.get ctx orphan = (tr, []) := by simp [Wrap.get, hg]
  simp only [searchHandler, handleSearchActs, hn, hget, List.nil_append, Option.bind_eq_bind, Option.bind_some, Option.pure_def, Option.map_some,
    Option.some.injEq, bodySize_eq] at hnext
  have hreq : GivesTexts W tr (tr.logActs .lazyTracef "search request %s" [v.request req] stack') [(false, "search request " ++ requestString req)] :=
    tells_log (W := W) (.base : Under tr tr []) hu none_fits .lazyTracef "search request %s" [v.request req] stack' _ fun m => by
      rw [show "search request %s" = "search request " ++ ("%s" ++ "") from rfl,
        text_between m _ "%s" "" _ _ (by decide) (by decide) (text_s m _ _ (hv.request m req)) (by decide)]
      simp [prefixTexts]
  have hall := (hreq.append (tells_search hv hg hu hs m₀)).append r1
  rw [← hsearch] at hall
  have hst : (renderActs v ctx orphan stack' "traces.html" view).2 = 200 ∨ (renderActs v ctx orphan stack' "traces.html" view).2 = 500 := by
    by_cases h : view.fails "traces.html"
    · exact Or.inr (r2.mpr h)
    · exact Or.inl (r3.mpr h)
  exact ⟨_, _, lines.map (told m₀), hst, r2, r3, hnext.symm, (a3 m₀).1, (a3 m₀).2, hall⟩

/-- **C151** A search request is served by the search handler behind the middleware, and the trace that the middleware has made for it is logged to by
no one else.  Then the trace is finished, and its events are, from the first to the last: the line of the request, the headers, the search request, what
is to be said about the search, its outcome last, how the response was rendered, and the status and the size of the response.  That status and that size are
what the client receives; the status is 500 if and only if rendering failed, and else 200.  The trace is errored if and only if the status
is not 200, or a client that was searched failed.  This is if the trace may have as many events as that; for all others see `C151_long_always_violated`. -/
theorem C151_search_partial [Nonempty W] (hv : v.Rendered W) (g : Globals) (start : Time) (id source category : String) (w w' : World A)
    (ex : List (AEnv W × Act A)) (ctx : Ctx A) (tr : Tr A) (hg : maybeGet ctx = some tr) (hu : tr.unprefixed)
    (compile : Compile) (orphan : Nat) (raw req : SearchRequest) (problems : List String) (hn : raw.normalize compile = some (req, problems))
    (search : Ctx A → SearchRequest → List (Act A)) (view : Rendering)
    (s : Srch) (lines : List (Logged A)) (answer : Answer) (hs : Searches v.toValues req.limit [] ctx s lines answer)
    (hsearch : search ctx req = (lines.map Logged.line).flatMap Line.acts)
    (r : HTTPRequest) (resp : Resp) (hr1 : resp.wroteHeader = false) (hr2 : resp.contentLength = none) (stack stack' : List StdFrame)
    (next : Ctx A → List (Does A)) (hnext : searchHandler v compile orphan stack' (.ok raw) search view ctx = some (next ctx))
    (o : Outcome) (took : Duration)
    (hex : callsIn tr.root (ex.map Prod.snd) = callsIn tr.root (handle (ctx, tr, []) v.num r resp stack next o took).1.acts)
    (hm : ∀ p ∈ ex, notMake tr.root p.2) (hrun : w.run ex = some w')
    (ht : w.traces tr.root = some (newCoreTrace g start id source category zeroTrace))
    (hlen : (((headerTexts r).length + (s.report req.limit).length + (view.report "traces.html").length + 3 : Nat) : Int) ≤ g.traceMaxEvents) :
    ∃ (status : Int) (t : CoreTrace A), (status = 200 ∨ status = 500) ∧ (status = 500 ↔ view.fails "traces.html") ∧
      (resp.head = false → resp.body = 0 → received resp (onWriter (next ctx)) = (status, answerBytes "traces.html" view)) ∧
      w'.traces tr.root = some t ∧ t.id = id ∧ t.category = category ∧ t.finished = true ∧ (t.errored = true ↔ s.fails ∨ status ≠ 200) ∧
      ∀ (env : Env W) evs, t.events' env = some evs → ∃ es : List (Bool × String),
        es.Perm (s.report req.limit) ∧ es.getLast? = (s.report req.limit).getLast? ∧
        evs.map (fun ev => (ev.isError, ev.what)) =
          (false, r.remoteAddr ++ " " ++ r.method ++ " " ++ r.url) :: (headerTexts r).map (fun h => (false, h)) ++
          (false, "search request " ++ requestString req) :: es ++ view.report "traces.html" ++
          [(false, outcomeText status (answerBytes "traces.html" view) took)] := by
  obtain ⟨status, acts, es, hst, r2, r3, hnext', hp, hlast, hall⟩ :=
    search_serves (W := W) hv ctx tr hg hu compile orphan raw req problems hn search view s lines answer hs hsearch stack' next hnext
  have hfails := report_error "traces.html" view
  have honce := once_reported resp hr1 hr2 status (by omega) (answerBytes "traces.html" view) acts
  rw [← hnext'] at honce
  obtain ⟨t, t1, t2, t3, t4, t5, t6⟩ := served_told hv.values.str v.num hv.values.num g start id source category w w' ex ctx tr hg hu r resp stack next o took
    _ _ hall _ _ hnext' honce.1 hex hm hrun ht (by
      refine Int.le_trans ?_ hlen
      have := hp.length_eq
      simp only [List.length_append, List.length_cons]
      omega)
  refine ⟨_, t, hst, r2, honce.2, t1, t2, t3, t4, ?_, ?_⟩
  · rw [t5, ne_eq, r3, not_not, ← hfails, ← report_fails req.limit s]
    simp only [List.mem_append, List.mem_cons]
    constructor
    · rintro ⟨x, (rfl | hx) | hx, e⟩
      · cases e
      · exact Or.inl ⟨x, hp.mem_iff.mp hx, e⟩
      · exact Or.inr ⟨x, hx, e⟩
    · rintro (⟨x, hx, e⟩ | ⟨x, hx, e⟩)
      · exact ⟨x, Or.inl (Or.inr (hp.mem_iff.mpr hx)), e⟩
      · exact ⟨x, Or.inr hx, e⟩
  · intro env evs hevs
    refine ⟨es, hp, hlast, ?_⟩
    rw [t6 env evs hevs]
    simp [requestLines]

/-- **C151** If the request cannot be decoded, the trace has one event between the line of the request with the headers and the line of the outcome: an error
that tells why.  The client receives status 400 with the reason and a newline, and the trace says so, is finished and is errored. -/
theorem C151_undecodable (hv : v.Rendered W) (g : Globals) (start : Time) (id source category : String) (w w' : World A)
    (ex : List (AEnv W × Act A)) (ctx : Ctx A) (tr : Tr A) (hg : maybeGet ctx = some tr) (hu : tr.unprefixed)
    (compile : Compile) (orphan : Nat) (e : String) (search : Ctx A → SearchRequest → List (Act A)) (view : Rendering)
    (r : HTTPRequest) (resp : Resp) (hr1 : resp.wroteHeader = false) (hr2 : resp.contentLength = none) (stack stack' : List StdFrame)
    (next : Ctx A → List (Does A)) (hnext : searchHandler v compile orphan stack' (.error e) search view ctx = some (next ctx))
    (o : Outcome) (took : Duration)
    (hex : callsIn tr.root (ex.map Prod.snd) = callsIn tr.root (handle (ctx, tr, []) v.num r resp stack next o took).1.acts)
    (hm : ∀ p ∈ ex, notMake tr.root p.2) (hrun : w.run ex = some w')
    (ht : w.traces tr.root = some (newCoreTrace g start id source category zeroTrace)) (hlen : (6 : Int) ≤ g.traceMaxEvents) :
    (resp.head = false → resp.body = 0 → received resp (onWriter (next ctx)) = (400, e.utf8ByteSize + 1)) ∧
    ∃ t, w'.traces tr.root = some t ∧ t.id = id ∧ t.category = category ∧ t.finished = true ∧ t.errored = true ∧
      ∀ (env : Env W) evs, t.events' env = some evs → evs.map (fun ev => (ev.isError, ev.what)) =
        (false, r.remoteAddr ++ " " ++ r.method ++ " " ++ r.url) :: (headerTexts r).map (fun h => (false, h)) ++
        [(true, "decode JSON request failed (" ++ e ++ ") -- returning error"), (false, outcomeText 400 (e.utf8ByteSize + 1) took)] := by
  have hget : Wrap.get ctx orphan = (tr, []) := by simp [Wrap.get, hg]
  simp only [searchHandler, handleSearchActs, hget, List.nil_append, Option.map_some, Option.some.injEq] at hnext
  have htell : GivesTexts W tr (tr.logActs .errorf "decode JSON request failed (%v) -- returning error" [v.err e] stack')
      [(true, "decode JSON request failed (" ++ e ++ ") -- returning error")] := by
    refine tells_log (W := W) (.base : Under tr tr []) hu none_fits .errorf _ _ stack' _ fun m => ?_
    rw [show "decode JSON request failed (%v) -- returning error" = "decode JSON request failed (" ++ ("%v" ++ ") -- returning error") from rfl,
      text_between m _ "%v" _ _ _ (by decide) (by decide) (text_v m _ _ (hv.values.err m e)) (by decide)]
    simp [prefixTexts, String.append_assoc]
  have honce := once_reported resp hr1 hr2 400 (by omega) (e.utf8ByteSize + 1)
    (tr.logActs .errorf "decode JSON request failed (%v) -- returning error" [v.err e] stack')
  rw [hnext] at honce
  obtain ⟨t, t1, t2, t3, t4, t5, t6⟩ := served_told hv.values.str v.num hv.values.num g start id source category w w' ex ctx tr hg hu r resp stack next o took
    _ _ htell _ _ hnext.symm honce.1 hex hm hrun ht (by
      refine Int.le_trans ?_ hlen
      have := List.length_filter_le (fun h => decide (r.header h ≠ "")) ["User-Agent", "Accept", "Content-Type"]
      simp only [headerTexts, List.length_map, List.length_cons, List.length_nil] at this ⊢
      omega)
  refine ⟨honce.2, t, t1, t2, t3, t4, t5.mpr ⟨_, List.mem_singleton_self _, rfl⟩, fun env evs hevs => ?_⟩
  rw [t6 env evs hevs]
  simp [requestLines]

end

end Trc.Web

/-! ## Example -/

namespace Trc.Web.Witness.Served

open Core Core.Spec Wrap Fmt Wrap.Witness.Searching Wrap.Witness.Handling

/-- The request of the example of C140, from a browser. -/
def request : HTTPRequest := { remoteAddr := "1.2.3.4:5", method := "GET", url := "/traces", header := fun h => if h = "Accept" then "text/html" else "" }

def next (incoming : Except String SearchRequest) (c : Ctx String) : List (Does String) := (searchHandler values comp 0 [] incoming Wrap.Witness.Handling.search view c).getD []

def run (incoming : Except String SearchRequest) : List (AEnv Unit × Act String) :=
  (handle (ctx, tr, []) values.num request {} [] (next incoming) .returned 1000).1.acts.map fun act =>
    ({ now := ⟨1, none⟩, w := (), id := "", subscribed := true }, act)

theorem runs : (world.run (run (.ok asked))).isSome = true := by decide +kernel
theorem runs_error : (world.run (run (.error "EOF"))).isSome = true := by decide +kernel

theorem no_make (incoming : Except String SearchRequest)
    (h : (run incoming).all (fun p => match p.2 with | .make _ _ _ => false | _ => true) = true) : ∀ p ∈ run incoming, notMake tr.root p.2 := by
  intro p hp
  have := List.all_eq_true.mp h p hp
  cases hq : p.2 with
  | make b s c => rw [hq] at this; cases this
  | _ => trivial

/-- The trace is finished, and errored because a client has failed; the client got a page of 2000 bytes. -/
example : ∃ w t, world.run (run (.ok asked)) = some w ∧ w.traces 0 = some t ∧ t.finished = true ∧ t.errored = true ∧
    received {} (onWriter (next (.ok asked) ctx)) = (200, 2000) ∧ outcomeText 200 2000 1000 = "HTTP 200, 2.0KB, 1µs" ∧
    headerTexts request = ["Accept: text/html"] := by
  obtain ⟨w, hw⟩ := Option.isSome_iff_exists.mp runs
  obtain ⟨status, t, h1, h2, h3, h4, -, -, h5, h6, -⟩ := C151_search_partial (W := Unit) values_ok (Globals.after []) ⟨0, none⟩ "i" "s" "c" world w (run (.ok asked)) ctx tr rfl trivial
    comp 0 asked normal [] normalized Wrap.Witness.Handling.search view srch logged _ searched rfl request {} rfl rfl [] [] (next (.ok asked)) rfl .returned 1000
    (by rw [run, List.map_map]; simp [Function.comp_def]) (no_make _ (by decide +kernel)) hw rfl (by decide)
  exact ⟨w, t, hw, h4, h5, h6.mpr (Or.inl (Or.inr (Or.inl trivial))), by decide +kernel, by decide +kernel, by decide +kernel⟩

/-- A body that is not JSON. -/
example : ∃ w t, world.run (run (.error "EOF")) = some w ∧ w.traces 0 = some t ∧ t.finished = true ∧ t.errored = true ∧
    received {} (onWriter (next (.error "EOF") ctx)) = (400, 4) := by
  obtain ⟨w, hw⟩ := Option.isSome_iff_exists.mp runs_error
  obtain ⟨h1, t, h2, -, -, h3, h4, -⟩ := C151_undecodable (W := Unit) values_ok (Globals.after []) ⟨0, none⟩ "i" "s" "c" world w (run (.error "EOF")) ctx tr rfl trivial
    comp 0 "EOF" Wrap.Witness.Handling.search view request {} rfl rfl [] [] (next (.error "EOF")) rfl .returned 1000
    (by rw [run, List.map_map]; simp [Function.comp_def]) (no_make _ (by decide +kernel)) hw rfl (by decide)
  exact ⟨w, t, hw, h2, h3, h4, h1 rfl rfl⟩

end Trc.Web.Witness.Served
