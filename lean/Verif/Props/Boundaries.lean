import Verif.Props.Render
import Verif.Props.Client
import Verif.Props.Rates
import Verif.Props.Middleware
import Verif.Props.Heap
import Verif.Props.Publish
import Verif.Props.Ulid

/-!
# How far some claims hold, exactly: C21, C64, C65, C67, C72, C77, C79, C99
-/

namespace Trc.Web

open Core (Event Frame)

/-! ## C64 -/

/-- **C64** holds of a request exactly if its later Accept lines ask for nothing that matters and that the first line does not ask for. -/
theorem C64_negotiated_exact (mime : List Char → Option String) (hm : mime [] = none) (r : Req) :
    Wanted mime r (served mime r) ↔
      (Lists mime r "text/event-stream" → Lists mime { r with accept := r.accept.take 1 } "text/event-stream") ∧
      (Lists mime r "text/html" → Lists mime { r with accept := r.accept.take 1 } "text/html" ∨
        Lists mime r "text/event-stream" ∨ HasParam r "json") := by
  obtain ⟨w1, w2, w3⟩ := C64_negotiated_partial mime hm { r with accept := r.accept.take 1 } (by simp; omega)
  rw [← C64_first_line] at w1 w2 w3
  have hsub : ∀ t, Lists mime { r with accept := r.accept.take 1 } t → Lists mime r t := by
    rintro t ⟨line, h1, h2⟩
    exact ⟨line, List.mem_of_mem_take h1, h2⟩
  have hs := hsub "text/event-stream"
  have hh := hsub "text/html"
  have hj : HasParam { r with accept := r.accept.take 1 } "json" ↔ HasParam r "json" := Iff.rfl
  rw [hj] at w2 w3
  unfold Wanted
  rw [w1, w2, w3]
  clear w1 w2 w3 hsub hj
  generalize Lists mime r "text/event-stream" = a at *
  generalize Lists mime { r with accept := r.accept.take 1 } "text/event-stream" = a₁ at *
  generalize Lists mime r "text/html" = b at *
  generalize Lists mime { r with accept := r.accept.take 1 } "text/html" = b₁ at *
  generalize HasParam r "json" = j at *
  by_cases h1 : a <;> by_cases h2 : a₁ <;> by_cases h3 : b <;> by_cases h4 : b₁ <;> by_cases h5 : j <;> simp_all

/-- Both sides are met by some requests with two lines, and missed by others. -/
example : let mime : List Char → Option String := fun s => if s = [] then none else some (String.ofList s)
    served mime ⟨[], ["text/html".toList, "*/*".toList]⟩ = .html ∧ served mime ⟨[], ["*/*".toList, "text/html".toList]⟩ = .json := by
  decide +kernel

/-! ## C67 -/

/-- By how much the wall clock was set between two readings of both clocks. -/
def setBetween (a b : Time) : Int :=
  match a.mono, b.mono with
  | some m, some n => (b.wall - n) - (a.wall - m)
  | _, _ => 0

/-- By how much it was set between successive readings. -/
def setAlong : Time → List Time → Int
  | _, [] => 0
  | a, b :: l => setBetween a b + setAlong b l

theorem sub_set (a b : Time) : subI b a = b.wall - a.wall - setBetween a b := by
  unfold subI setBetween Time.sub
  cases a.mono <;> cases b.mono <;> simp only
  case some.some m n => show n - m = _; omega
  all_goals show b.wall - a.wall = _; omega

theorem loop_set (started : Time) (evs : List Event) (i : Int) (prev : Time) :
    deltaSum (renderLoop started i prev evs).1 =
      (renderLoop started i prev evs).2.wall - prev.wall - setAlong prev (evs.map (·.when_)) ∧
    setAlong prev (evs.map (·.when_) ++ [e]) = setAlong prev (evs.map (·.when_)) + setBetween (renderLoop started i prev evs).2 e := by
  induction evs generalizing i prev with
  | nil => exact ⟨by simp [renderLoop, deltaSum, setAlong], by simp [renderLoop, setAlong]⟩
  | cons ev evs ih =>
    obtain ⟨h1, h2⟩ := ih (i + 1) ev.when_
    have hs := sub_set prev ev.when_
    refine ⟨?_, ?_⟩
    · show subI ev.when_ prev + deltaSum (renderLoop started (i + 1) ev.when_ evs).1 = _
      rw [h1, hs]
      simp only [List.map_cons, setAlong]
      show _ = (renderLoop started (i + 1) ev.when_ evs).2.wall - prev.wall - _
      omega
    · simp only [List.map_cons, List.cons_append, setAlong]
      rw [h2]
      show _ = _ + setBetween (renderLoop started (i + 1) ev.when_ evs).2 e
      omega

/-- **C67** What the deltas add up to: the duration, less by how much the wall clock was set between successive readings that both
have a monotonic time.  So they add up to the duration exactly if this is zero: in particular for traces from the wire, and for
traces in which the clocks are in step, even if some times come from the wire. -/
theorem C67_deltas_exact (st : Static) :
    deltaSum (renderEvents st) = st.duration - setAlong st.started (st.events.map (·.when_) ++ [addTime st.started st.duration]) := by
  obtain ⟨h1, h2⟩ := loop_set (e := addTime st.started st.duration) st.started st.events 0 st.started
  have hs := sub_set (renderLoop st.started 0 st.started st.events).2 (addTime st.started st.duration)
  have hw : (addTime st.started st.duration).wall = st.started.wall + (show Int from st.duration) := rfl
  rw [h2]
  have : deltaSum (renderEvents st) = 0 + (deltaSum (renderLoop st.started 0 st.started st.events).1 +
      (subI (addTime st.started st.duration) (renderLoop st.started 0 st.started st.events).2 + 0)) := by
    unfold renderEvents
    rw [List.cons_append]
    show (0 : Int) + deltaSum (_ ++ _) = _
    rw [deltaSum_append]
    rfl
  rw [this, h1, hs, hw]
  show (_ : Int) = (show Int from st.duration) - _
  omega

/-- In-step clocks, whatever times lack a monotonic reading. -/
theorem C67_in_step (st : Static) (ahead : Int)
    (h : ∀ t ∈ st.started :: st.events.map (·.when_), ∀ m, t.mono = some m → t.wall - m = ahead) : deltaSum (renderEvents st) = st.duration := by
  rw [C67_deltas_exact]
  have key : ∀ (l : List Time) (a : Time), (∀ t ∈ a :: l, ∀ m, t.mono = some m → t.wall - m = ahead) → setAlong a l = 0 := by
    intro l
    induction l with
    | nil => intro a _; rfl
    | cons b l ih =>
      intro a h
      have : setBetween a b = 0 := by
        unfold setBetween
        cases ha : a.mono <;> cases hb : b.mono <;> simp only
        have := h a (by simp) _ ha
        have := h b (by simp) _ hb
        omega
      rw [setAlong, this, ih b fun t ht => h t (by simp [ht])]
      rfl
  rw [key]
  · show (show Int from st.duration) - 0 = (show Int from st.duration)
    omega
  · intro t ht m e
    rcases List.mem_cons.mp ht with rfl | ht
    · exact h _ (by simp) m e
    · rcases List.mem_append.mp ht with ht | ht
      · exact h t (by simp [ht]) m e
      · obtain rfl := List.mem_singleton.mp ht
        unfold addTime at e
        simp only [Option.map_eq_some_iff] at e
        obtain ⟨n, e1, e2⟩ := e
        have := h st.started (by simp) n e1
        have hw : (addTime st.started st.duration).wall = st.started.wall + (show Int from st.duration) := rfl
        have e2' : n + (show Int from st.duration) = m := e2
        omega

/-- A clock set back by 50 between the first and the second event; the time of the third event is from the wire. -/
example : setAlong ⟨1000, some 0⟩ [⟨1010, some 10⟩, ⟨970, some 20⟩, ⟨985, none⟩, addTime ⟨1000, some 0⟩ 40] = -50 := by decide

/-! ## C72 -/

/-- **C72** The URI is treated as claimed (one without a scheme gets one, any other is kept) exactly if it has a scheme just when it begins
with `http`. -/
theorem C72_scheme_exact (c : StreamClient) (hne : c.uri ≠ []) :
    (HasScheme c.initialize.uri ∧ (HasScheme c.uri → c.initialize.uri = c.uri)) ↔
      (HasScheme c.uri ↔ ∃ t, c.uri = ['h', 't', 't', 'p'] ++ t) := by
  by_cases hh : ∃ t, c.uri = ['h', 't', 't', 'p'] ++ t
  · have hu : c.initialize.uri = c.uri := by
      show forceURI c.uri = c.uri
      have := (hasHTTP_iff _).2 hh
      unfold forceURI
      rw [if_neg (fun h' => by rw [this] at h'; cases h'.2)]
    rw [hu]
    simp only [hh, iff_true, implies_true, and_true]
  · obtain ⟨h1, h2⟩ := (C72_scheme_partial c).2.2 hne hh
    simp only [hh, iff_false, h2, true_and]
    constructor
    · intro h hs
      have := h hs
      rw [h1] at this
      have := congrArg List.length this
      simp at this
      omega
    · intro h hs
      exact absurd hs h

/-- Both sides of `C72_scheme_exact` are false of a host named `httpbin`, which gets no scheme, and of other schemes. -/
example : (∃ t, "httpbin/x".toList = ['h', 't', 't', 'p'] ++ t) ∧ ({ uri := "httpbin/x".toList } : StreamClient).initialize.uri = "httpbin/x".toList :=
  ⟨⟨"bin/x".toList, by decide +kernel⟩, by decide +kernel⟩

/-- **C72** A send buffer of 0, or less, is never what the server uses, but its default, unless the URI asks for one. -/
theorem C72_zero_buffer_always_violated (hm : ExactMul mulFrac) (c : StreamClient) (f : Filter) (raw : Bytes) (hraw : NoFilter raw)
    (hd : ∀ d, f.minDuration = some d → Is64 d) (h0 : c.sendBuffer ≤ 0) (hs : vals (bytesOf "sendbuf") (parseQuery raw) = []) :
    c.initialize.sendBuffer = 0 ∧ sendbufOfURL (c.stream f raw) = 100 := by
  have h0' : c.initialize.sendBuffer = 0 := by
    show (if c.sendBuffer < 0 then 0 else if c.sendBuffer > 100000 then 100000 else c.sendBuffer) = 0
    split
    · rfl
    · split <;> omega
  refine ⟨h0', ?_⟩
  generalize hi : c.initialize = i at h0'
  have hstream : c.stream f raw = i.query f raw := by unfold StreamClient.stream; rw [hi]
  rw [hstream]
  obtain ⟨q, hq⟩ : ∃ q : Values, q = ((parseQuery raw).setIf (i.sendBuffer > 0) (bytesOf "sendbuf")
    (bytesOf (String.ofList (itoa i.sendBuffer)))).setIf (i.statsInterval > 0) (bytesOf "stats")
      (bytesOf (String.ofList (durationString i.statsInterval))) := ⟨_, rfl⟩
  have hquery : i.query f raw = encodeFilter f q.encode := by rw [hq]; rfl
  have hvals : ∀ k, vals k q = if i.statsInterval > 0 ∧ bytesOf "stats" = k
      then [bytesOf (String.ofList (durationString i.statsInterval))]
      else if i.sendBuffer > 0 ∧ bytesOf "sendbuf" = k then [bytesOf (String.ofList (itoa i.sendBuffer))]
      else vals k (parseQuery raw) := by
    intro k; rw [hq, vals_setIf, vals_setIf]
  have hno : NoFilter q.encode := by
    intro k hk
    rw [vals_parseQuery_encode, hvals]
    have n1 : bytesOf "stats" ≠ bytesOf k := bytesOf_ne (by rintro rfl; revert hk; decide)
    have n2 : bytesOf "sendbuf" ≠ bytesOf k := bytesOf_ne (by rintro rfl; revert hk; decide)
    rw [if_neg (fun h => n1 h.2), if_neg (fun h => n2 h.2)]
    exact hraw k hk
  obtain ⟨r1, r2⟩ := C61_round_trip hm f q.encode hno hd
  rw [hquery]
  have hne : bytesOf "stats" ≠ bytesOf "sendbuf" := bytesOf_ne (by decide)
  unfold sendbufOfURL parseRange atoiBytes
  rw [get_text]
  unfold firstValue
  rw [r2 "sendbuf" (by decide), vals_parseQuery_encode, hvals, if_neg (fun h => hne h.2),
    if_neg (fun h => by omega), hs]
  decide +kernel

end Trc.Web

namespace Trc

/-! ## C79 -/

theorem rate_pos (cs : CategoryStats) (total : Int) (now : Time) (hn : 0 < total) (hd : 0 < now.sub cs.oldest)
    (h1 : cs.oldest.isZero = false) (h2 : cs.newest.isZero = false) : 0 < cs.rate total now := by
  unfold CategoryStats.rate
  simp only
  rw [if_neg (by rw [h1, h2]; rintro (h | h | h | h) <;> first | omega | cases h | exact absurd hd (Int.not_lt.mpr h))]
  generalize now.sub cs.oldest = d at hd
  change Int at d
  have e1 : (0 : Rat) < (total : Rat) := by exact_mod_cast hn
  have e2 : (0 : Rat) < (d : Rat) := by exact_mod_cast hd
  unfold perSecond
  rw [Rat.div_def]
  refine Rat.mul_pos e1 (Rat.inv_pos.mpr ?_)
  rw [Rat.div_def]
  exact Rat.mul_pos e2 (by decide +kernel)

theorem rate_nonneg (cs : CategoryStats) (total : Int) (now : Time) : 0 ≤ cs.rate total now := by
  by_cases h : total ≤ 0 ∨ now.sub cs.oldest ≤ 0 ∨ cs.newest.isZero ∨ cs.oldest.isZero
  · unfold CategoryStats.rate
    simp only
    rw [if_pos h]
    decide
  · refine Rat.le_of_lt (rate_pos cs total now ?_ ?_ ?_ ?_)
    · exact Int.not_le.mp fun h' => h (.inl h')
    · exact Int.not_le.mp fun h' => h (.inr (.inl h'))
    · exact Bool.eq_false_iff.mpr fun h' => h (.inr (.inr (.inr h')))
    · exact Bool.eq_false_iff.mpr fun h' => h (.inr (.inr (.inl h')))

/-- **C79** A merged category reports the rate of all its traces exactly if their rate was zero. -/
theorem C79_merged_exact (ours theirs merged : Rated) (k : MergeClocks) (ho : ours.tracerate = 0) (ht : theirs.tracerate = 0)
    (hz : ours.cs.isZero = false) (hz' : theirs.cs.isZero = false) (h : mergeRated (some ours) theirs k = some merged) :
    merged.tracerate = merged.cs.rate merged.cs.totalCount k.t₁ ↔ theirs.cs.rate theirs.cs.totalCount k.t₂ = 0 := by
  obtain ⟨-, h2⟩ := C79_counted_twice_partial ours theirs merged k ho ht hz hz' h
  rw [h2]
  constructor
  · intro e
    grind
  · intro e
    rw [e, Rat.add_zero]

/-- **C79** is violated whenever they have a trace of the category that began before the merge: the merged category reports a rate that is too
high, for ever. -/
theorem C79_merged_always_violated (ours theirs merged : Rated) (k : MergeClocks) (ho : ours.tracerate = 0) (ht : theirs.tracerate = 0)
    (hz : ours.cs.isZero = false) (hz' : theirs.cs.isZero = false) (h : mergeRated (some ours) theirs k = some merged)
    (hn : 0 < theirs.cs.totalCount) (hd : 0 < k.t₂.sub theirs.cs.oldest) (h1 : theirs.cs.oldest.isZero = false)
    (h2 : theirs.cs.newest.isZero = false) (now : Time) :
    merged.cs.rate merged.cs.totalCount k.t₁ < (merged.traceRate now).1 := by
  obtain ⟨-, h3⟩ := C79_counted_twice_partial ours theirs merged k ho ht hz hz' h
  have hpos := rate_pos theirs.cs theirs.cs.totalCount k.t₂ hn hd h1 h2
  have hnn := rate_nonneg merged.cs merged.cs.totalCount k.t₁
  have hne : merged.tracerate ≠ 0 := by rw [h3]; grind
  unfold Rated.traceRate
  rw [if_pos hne, h3]
  grind

end Trc

namespace Trc.Heap

open Trc.Core Trc.Core.Spec

variable {W A : Type} [Sys W A]

/-! ## C21 -/

/-- **C21** fails for every trace that was finished, dropped and freed, at once: its handle reports no events any more, and whatever trace is created
next may be the one that the handle reports from then on, as active. -/
theorem C21_freed_always_violated (acts : List (Act W A)) (s : St W A)
    (hr : St.init.run acts = some s) (i : Nat) (hd : Handle) (hp : s.pending[i]? = some hd)
    (hf : (absTrace s.heap hd.addr).finished = true) :
    ∃ s₁, s.step (.free i) = some s₁ ∧ (absTrace s₁.heap hd.addr).events = [] ∧
      ∀ k now id source category, ∃ ch s₂, s₁.step (.new k now id source category ch) = some s₂ ∧
        (absTrace s₂.heap hd.addr).id = id ∧ (absTrace s₂.heap hd.addr).source = source ∧
        (absTrace s₂.heap hd.addr).category = category ∧ (absTrace s₂.heap hd.addr).start = now ∧
        (absTrace s₂.heap hd.addr).finished = false := by
  obtain ⟨f, hinv⟩ := init_inv_run hr
  obtain ⟨s₁, f₁, h1, hinv₁⟩ := inv_step hinv (.free i)
  have hf' : (s.heap.traces hd.addr).finished = true := hf
  obtain ⟨h', hfree, fr⟩ := free_spec hinv.mem hd.addr hf'
  have hs₁ : s₁.heap = h' := by
    simp only [St.step, hp, hfree, Option.bind_eq_bind, Option.bind_some, Option.pure_def, Option.some.injEq] at h1
    rw [← h1]
  refine ⟨s₁, h1, ?_, ?_⟩
  · rw [hs₁]
    unfold absTrace
    rw [fr.self]
    rfl
  · intro k now id source category
    have n := newCoreTrace_spec hinv₁.mem (fun a ha => hinv₁.dead a (hinv₁.tpDead a ha).2)
      (fun a ha => hinv₁.dead a (by
        cases hg : s₁.ghost a with
        | none => rfl
        | some gh => have := hinv₁.lt a gh hg; omega)) s₁.globals (some 0) now id source category
    have ha : (s₁.heap.newCoreTrace s₁.globals (some 0) now id source category).2 = hd.addr := by
      unfold Heap.newCoreTrace
      have : choose s₁.heap.tracePool (some 0) = some hd.addr := by rw [hs₁, fr.tracePool]; rfl
      simp only [this]
    refine ⟨{ trace := some 0 }, _, rfl, ?_⟩
    show (absTrace (s₁.heap.newCoreTrace s₁.globals (some 0) now id source category).1 hd.addr).id = id ∧ _
    have e := n.abs
    rw [ha] at e
    simp only [e]
    exact ⟨rfl, rfl, rfl, rfl, rfl⟩

end Trc.Heap

namespace Trc.Web

open Trc.Core Trc.Core.Spec

variable {W A : Type}

/-! ## C65 -/

theorem limits_append (h h' : Hist W A) : limitsSet (h ++ h') = limitsSet h ++ limitsSet h' := by
  induction h with
  | nil => rfl
  | cons p h ih =>
    obtain ⟨env, c⟩ := p
    cases c <;> simp_all [limitsSet]

theorem limits_headers (x : Around W A) (r : HTTPRequest) : limitsSet (requestLine x r :: headerLines x r) = [] := by
  have hh : ∀ l : List String, limitsSet (W := W) (A := A) (l.map fun h =>
      (x.envHeader h, .log .lazyTracef "%s: %s" [x.str h, x.str (r.header h)] x.callers)) = [] := by
    intro l
    induction l with
    | nil => rfl
    | cons a l ih => simpa [limitsSet] using ih
  conv => lhs; arg 1; arg 1; unfold requestLine
  simp only [limitsSet, headerLines, hh]

theorem logs_headers (x : Around W A) (r : HTTPRequest) : (logs (headerLines x r)).length = (headerLines x r).length := by
  have hl : ∀ l : List String, (logs (W := W) (A := A) (l.map fun h =>
      (x.envHeader h, .log .lazyTracef "%s: %s" [x.str h, x.str (r.header h)] x.callers))).length = l.length := by
    intro l
    induction l with
    | nil => rfl
    | cons a l ih => simpa [logs] using ih
  unfold headerLines
  rw [hl, List.length_map]

theorem logs_request (x : Around W A) (r : HTTPRequest) (h : Hist W A) :
    logs (requestLine x r :: h) =
      { kind := .lazyTracef, format := "%s %s %s", args := [x.str r.remoteAddr, x.str r.method, x.str r.url]
        callers := x.callers, env := x.envLine } :: logs h := by
  conv => lhs; arg 1; arg 1; unfold requestLine
  rfl

variable [Sys W A]

/-- **C65** fails for every handler that finishes the trace: the events are the request line, the headers and what the handler logged until then, and
so the outcome is not among them. -/
theorem C65_finishes_always_violated (settings : List Setting) (start : Time) (id source category : String)
    (old : CoreTrace A) (x : Around W A) (r : HTTPRequest) (w : Resp) (ops : List (HOp W A))
    (o : Outcome) (later : Hist W A) (env : Env W)
    (hops : finishedAt (traceCalls ops) ≠ none) (hset : limitsSet (active (traceCalls ops)) = [])
    (hlim : ((headerLines x r).length + (logged (traceCalls ops)).length + 1 : Int) ≤ (Globals.after settings).traceMaxEvents) :
    ∃ tr evs, (fresh settings start id source category old).run
        ((middleware x r w ops o).1.calls ++ later) = some tr ∧
      tr.events' env = some evs ∧
      evs.length = (headerLines x r).length + (logged (traceCalls ops)).length + 1 ∧
      ∀ (i : Nat) ev e, evs[i]? = some ev → (logs (requestLine x r :: headerLines x r) ++ logged (traceCalls ops))[i]? = some e →
        Core.Reports (Globals.after settings).traceNoStacks ev e := by
  have hcalls := (C65_calls x r w ops o).2
  have hcut : ∀ (h h' : Hist W A), finishedAt h ≠ none → active (h ++ h') = active h := by
    intro h h' hf
    induction h with
    | nil => exact absurd rfl hf
    | cons p h ih =>
      obtain ⟨env, c⟩ := p
      cases c <;> simp_all [active, finishedAt]
  have hact : active ((middleware x r w ops o).1.calls ++ later) =
      (requestLine x r :: headerLines x r) ++ active (traceCalls ops) := by
    rw [hcalls, List.append_assoc, List.append_assoc, active_append (finishedAt_headers x r), hcut _ _ hops]
  have hlogged : logged ((middleware x r w ops o).1.calls ++ later) =
      logs (requestLine x r :: headerLines x r) ++ logged (traceCalls ops) := by
    unfold logged
    rw [hact, logs_append]
  have hlen : (logged ((middleware x r w ops o).1.calls ++ later)).length =
      (headerLines x r).length + (logged (traceCalls ops)).length + 1 := by
    rw [hlogged, logs_request, List.length_append, List.length_cons, logs_headers]
    omega
  obtain ⟨tr, evs, h1, h2, h3, h4⟩ := C11_complete_in_order settings start id source category old
    ((middleware x r w ops o).1.calls ++ later) (by omega) (by rw [hact, limits_append, limits_headers, hset]; simp) env
  rw [hlogged] at h4
  exact ⟨tr, evs, h1, h2, by rw [h3, hlen], h4⟩

/-- **C65** fails for every handler that logs so much that the limit is exceeded: neither the request line nor the outcome is among the events, which
are headers, what the handler logged, and the notice at the end. -/
theorem C65_truncated_always_violated (settings : List Setting) (start : Time) (id source category : String)
    (old : CoreTrace A) (x : Around W A) (r : HTTPRequest) (w : Resp) (ops : List (HOp W A))
    (o : Outcome) (later : Hist W A) (env : Env W) (M : Nat) (hM : (Globals.after settings).traceMaxEvents = M)
    (hops : finishedAt (traceCalls ops) = none) (hset : limitsSet (traceCalls ops) = [])
    (hlim : M < (headerLines x r).length + (logs (traceCalls ops)).length + 2) :
    ∃ tr body, (fresh settings start id source category old).run
        ((middleware x r w ops o).1.calls ++ later) = some tr ∧
      tr.events' env = some (body ++ [truncatedNotice env.now ((headerLines x r).length + (logs (traceCalls ops)).length + 2 - M : Nat)]) ∧
      body.length = M - 1 ∧
      ∀ (i : Nat) ev, body[i]? = some ev → ∃ e, (logs (headerLines x r) ++ logs (traceCalls ops))[i]? = some e ∧
        Core.Reports (Globals.after settings).traceNoStacks ev e := by
  have hcalls := (C65_calls x r w ops o).2
  have hpre : finishedAt (requestLine x r :: headerLines x r ++ traceCalls ops) = none := by
    rw [finishedAt_append (finishedAt_headers x r)]; exact hops
  have hact : active ((middleware x r w ops o).1.calls ++ later) =
      (requestLine x r :: headerLines x r ++ traceCalls ops) ++
        [outcomeLine x (reported w ops).1 (reported w ops).2] := by
    rw [hcalls, List.append_assoc, active_append hpre]
    simp [outcomeLine, active]
  obtain ⟨eo, heo⟩ : ∃ eo, logs [outcomeLine x (reported w ops).1 (reported w ops).2] = [eo] := ⟨_, rfl⟩
  obtain ⟨er, her⟩ : ∃ er, ∀ h : Hist W A, logs (requestLine x r :: h) = er :: logs h := ⟨_, logs_request x r⟩
  have hlogged : logged ((middleware x r w ops o).1.calls ++ later) =
      er :: ((logs (headerLines x r) ++ logs (traceCalls ops)) ++ [eo]) := by
    unfold logged
    rw [hact, logs_append, heo, logs_append, her, List.cons_append, List.cons_append]
  have hlen : (logged ((middleware x r w ops o).1.calls ++ later)).length =
      (headerLines x r).length + (logs (traceCalls ops)).length + 2 := by
    rw [hlogged, List.length_cons, List.length_append, List.length_append, logs_headers, List.length_singleton]
  obtain ⟨tr, evs, h1, h2, h3, h4⟩ := C12_truncation settings start id source category old
    ((middleware x r w ops o).1.calls ++ later) (by
      rw [hact, limits_append, limits_append, limits_headers, hset]
      rfl) env M hM
  obtain ⟨body, e1, e2, e3⟩ := h4 (by omega)
  rw [hlen] at e1
  refine ⟨tr, body, h1, by rw [h2, e1], e2, ?_⟩
  intro i ev hi
  have hlt : i < body.length := (List.getElem?_eq_some_iff.mp hi).1
  have hlt' : i < (logs (headerLines x r) ++ logs (traceCalls ops)).length := by
    rw [List.length_append, logs_headers]
    omega
  refine ⟨_, List.getElem?_eq_getElem hlt', e3 i ev _ hi ?_⟩
  rw [hlogged, List.getElem?_cons_succ, List.getElem?_append_left hlt']
  exact List.getElem?_eq_getElem hlt'

end Trc.Web

namespace Trc.Wrap

open Core Core.Spec Fmt

variable {W A : Type} [Sys W A]

/-! ## C77 -/

theorem core_append (tr : CoreTrace A) (h₁ h₂ : Hist W A) : tr.run (h₁ ++ h₂) = (tr.run h₁).bind fun t => t.run h₂ := by
  induction h₁ generalizing tr with
  | nil => rfl
  | cons p h ih =>
    obtain ⟨env, c⟩ := p
    simp only [List.cons_append, CoreTrace.run]
    cases tr.step env c with
    | none => rfl
    | some q => simpa using ih q.1

/-- **C77** fails for every trace that is active and not errored (and below its limit) when a goroutine logs an error just before the events are read:
the copy is not what the trace was before that, nor what it is after it. -/
theorem C77_error_always_violated (settings : List Setting) (start : Time) (id source category : String) (old : CoreTrace A)
    (h : Hist W A) (t : CoreTrace A) (hr : (fresh settings start id source category old).run h = some t)
    (hfin : finishedAt h = none) (herr : t.errored = false) (hlims : limitsSet h = [])
    (hlim : ((logs h).length : Int) + 1 ≤ (Globals.after settings).traceMaxEvents) (now : Time) (env env₃ : Env W)
    (kind : LogKind) (hk : isErr kind = true) (format : String) (args : List A) (callers : List StdFrame) :
    ∃ st t₁, newSearchTrace t now [] [] [(env₃, .log kind format args callers)] env = some st ∧
      t.run [(env₃, .log kind format args callers)] = some t₁ ∧
      ∀ now' (env' : Env W), ¬ Snapshot t now' env' st ∧ ¬ Snapshot t₁ now' env' st := by
  have hact : active h = h := by
    have : ∀ h : Hist W A, finishedAt h = none → active h = h := by
      intro h
      induction h with
      | nil => intro _; rfl
      | cons p h ih =>
        obtain ⟨env, c⟩ := p
        cases c <;> simp_all [active, finishedAt]
    exact this h hfin
  have hact' : active (h ++ [(env₃, .log kind format args callers)]) = h ++ [(env₃, .log kind format args callers)] := by
    have : ∀ h : Hist W A, finishedAt h = none → active (h ++ [(env₃, .log kind format args callers)]) = h ++ [(env₃, .log kind format args callers)] := by
      intro h
      induction h with
      | nil => intro _; rfl
      | cons p h ih =>
        obtain ⟨env, c⟩ := p
        cases c <;> simp_all [active, finishedAt]
    exact this h hfin
  have hlog : ∀ h : Hist W A, logs (h ++ [(env₃, .log kind format args callers)]) = logs h ++ [⟨kind, format, args, callers, env₃⟩] := by
    intro h
    induction h with
    | nil => rfl
    | cons p h ih =>
      obtain ⟨env, c⟩ := p
      cases c <;> simp_all [logs]
  have hlim' : ∀ h : Hist W A, limitsSet (h ++ [(env₃, .log kind format args callers)]) = limitsSet h := by
    intro h
    induction h with
    | nil => rfl
    | cons p h ih =>
      obtain ⟨env, c⟩ := p
      cases c <;> simp_all [limitsSet]
  obtain ⟨t₁, evs, a1, a2, a3, a4⟩ := C11_complete_in_order settings start id source category old
    (h ++ [(env₃, .log kind format args callers)]) (by unfold logged; rw [hact', hlog]; simp; omega)
    (by rw [hact', hlim', hlims]; simp) env
  have hrun : t.run [(env₃, .log kind format args callers)] = some t₁ := by
    have e := a1
    rw [core_append, hr] at e
    exact e
  obtain ⟨tE, b1, b2⟩ := C10_errored settings start id source category old (h ++ [(env₃, .log kind format args callers)])
  rw [a1] at b1
  cases b1
  have hE : t₁.errored = true := b2.mpr ⟨⟨kind, format, args, callers, env₃⟩, by unfold logged; rw [hact', hlog]; simp, hk⟩
  have hnew : newSearchTrace t now [] [] [(env₃, .log kind format args callers)] env = some
      { source := t.source, id := t.id, category := t.category, started := t.start, duration := t.durationAt now, finished := t.finished
        errored := t.errored, events := evs } := by
    unfold newSearchTrace
    show ((t.run [(env₃, .log kind format args callers)]).bind fun t₃ => (t₃.events' env).bind fun events => some
      (Static.mk t.source t.id t.category t.start (t.durationAt now) t.finished t.errored events)) = _
    rw [hrun, Option.bind_some, a2, Option.bind_some]
  refine ⟨_, t₁, hnew, hrun, fun now' env' => ⟨?_, ?_⟩⟩
  · rintro ⟨-, -, -, -, -, -, -, h8⟩
    obtain ⟨t0, evs0, c1, c2, c3, c4⟩ := C11_complete_in_order settings start id source category old
      h (by unfold logged; rw [hact]; omega) (by rw [hact, hlims]; simp) env'
    rw [hr] at c1
    cases c1
    rw [c2] at h8
    have e : evs0 = evs := Option.some.inj h8
    have : evs0.length = evs.length := by rw [e]
    rw [c3, a3] at this
    unfold logged at this
    rw [hact, hact', hlog] at this
    simp at this
  · rintro ⟨-, -, -, -, -, -, h7, -⟩
    rw [hE] at h7
    have : t.errored = true := h7
    rw [herr] at this
    cases this

end Trc.Wrap

namespace Trc.Ulid

/-! ## C99 -/

/-- **C99** Of traces created one after the other within a millisecond, creating one panics exactly if the random number of the first one and the increments of
the others add up to 2⁸⁰ or more. -/
theorem C99_panic_exact (c : Nat × Time × Random) (cs : List (Nat × Time × Random)) (h0 : c.2.2.bits ≠ 0)
    (hs : 0 ≤ millis c.2.1 ∧ millis c.2.1 < 2 ^ 48) (hms : ∀ d ∈ cs, millis d.2.1 = millis c.2.1) (hr : c.2.2.Valid) :
    run {} ((c :: cs).flatMap create) = none ↔ 2 ^ 80 ≤ c.2.2.bits + (cs.map (·.2.2.inc)).sum := by
  have hts : ∀ t : Time, 0 ≤ millis t → millis t < 2 ^ 48 → (timestamp t : Int) = millis t ∧ ¬ maxTime < timestamp t := by
    intro t h1 h2
    unfold timestamp maxTime
    unfold millis at *
    omega
  have hone : ∀ (s : St) (d : Nat × Time × Random) (l : List Ev), ¬ maxTime < timestamp d.2.1 →
      run s (create d ++ l) = (s.reader.read (timestamp d.2.1) d.2.2).bind fun p =>
        run { reader := p.1, now := fun g' => if g' = d.1 then none else if g' = d.1 then some d.2.1 else s.now g'
              made := s.made ++ [(d.2.1, str (timestamp d.2.1 * 2 ^ 80 + p.2))] } l := by
    intro s d l hm
    obtain ⟨g, t, r⟩ := d
    simp only [create, List.cons_append, List.nil_append, run, step, Option.bind_some, if_true]
    unfold Reader.new
    rw [if_neg hm]
    cases s.reader.read (timestamp t) r with
    | none => rfl
    | some p => rfl
  have key : ∀ (l : List (Nat × Time × Random)) (s : St), (∀ d ∈ l, millis d.2.1 = millis c.2.1) → s.reader.ms = timestamp c.2.1 →
      0 < s.reader.entropy → s.reader.entropy < 2 ^ 80 →
      (run s (l.flatMap create) = none ↔ 2 ^ 80 ≤ s.reader.entropy + (l.map (·.2.2.inc)).sum) := by
    intro l
    induction l with
    | nil => intro s _ _ _ h; simp [run]; omega
    | cons d l ih =>
      intro s hd hm hp hb
      have hd0 := hd d (by simp)
      obtain ⟨u1, u2⟩ := hts d.2.1 (by omega) (by omega)
      obtain ⟨u3, -⟩ := hts c.2.1 hs.1 hs.2
      have hts' : timestamp d.2.1 = timestamp c.2.1 := by omega
      rw [List.flatMap_cons, hone s d _ u2]
      unfold Reader.read
      rw [if_pos ⟨by omega, by rw [hm, hts']⟩, List.map_cons, List.sum_cons]
      by_cases h : s.reader.entropy + d.2.2.inc < 2 ^ 80
      · rw [if_pos h, Option.bind_some]
        refine (ih { reader := { s.reader with entropy := s.reader.entropy + d.2.2.inc }, now := _, made := _ }
          (fun e he => hd e (by simp [he])) hm (by show 0 < _ + _; omega) h).trans ?_
        show _ ≤ s.reader.entropy + d.2.2.inc + _ ↔ _
        omega
      · rw [if_neg h]
        simp only [Option.bind_none, true_iff]
        omega
  obtain ⟨-, u2⟩ := hts c.2.1 hs.1 hs.2
  rw [List.flatMap_cons, hone {} c _ u2]
  unfold Reader.read
  rw [if_neg (fun h => h.1 rfl), Option.bind_some]
  exact key cs _ hms rfl (Nat.pos_of_ne_zero h0) hr.bits

/-- Three traces of one millisecond that just fit, and three that do not. -/
example : let at_ (n : Int) : Time := { wall := 62135596800 * 1000000000 + 1700000000000 * 1000000 + n, mono := none }
    (2 ^ 80 - 3) + ([(2, at_ 5, (⟨0, 1⟩ : Random)), (1, at_ 7, ⟨0, 1⟩)].map (·.2.2.inc)).sum < 2 ^ 80 ∧
    (run {} ([(1, at_ 0, ⟨2 ^ 80 - 3, 9⟩), (2, at_ 5, ⟨0, 1⟩), (1, at_ 7, ⟨0, 1⟩)].flatMap create)).isSome = true ∧
    (run {} ([(1, at_ 0, ⟨2 ^ 80 - 3, 9⟩), (2, at_ 5, ⟨0, 1⟩), (1, at_ 7, ⟨0, 2⟩)].flatMap create)).isSome = false := by
  decide +kernel

end Trc.Ulid
