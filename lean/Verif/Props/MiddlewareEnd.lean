import Verif.Web.MiddlewareActs
import Verif.Props.Middleware
import Verif.Props.SearchEnd

/-!
# C110: from an HTTP request to the output of trc
-/

namespace Trc.Web

open Core Core.Spec Wrap Fmt Cmd

variable {W A : Type} [Arg A]

/-! ## Specification -/

/-- What a handler does with the writer. -/
def onWriter (ops : List (Does A)) : List (HOp Unit A) :=
  ops.filterMap fun
    | .writeHeader c => some (.writeHeader c)
    | .write n => some (.write n)
    | .flush => some .flush
    | .acts _ => none

/-- What else a handler does. -/
def elseActs (ops : List (Does A)) : List (Act A) :=
  ops.flatMap fun
    | .acts l => l
    | _ => []

/-- The texts of the headers that a request has. -/
def headerTexts (r : HTTPRequest) : List String :=
  (["User-Agent", "Accept", "Content-Type"].filter fun h => r.header h ≠ "").map fun h => h ++ ": " ++ r.header h

/-- The text of an outcome. -/
def outcomeText (code : Int) (bytes : Nat) (took : Duration) : String :=
  "HTTP " ++ toString code ++ ", " ++ String.ofList (Util.humanizeBytes bytes) ++ ", " ++ String.ofList (Util.humanizeDuration took)

/-! ## The lines of the middleware -/

/-- A line that the middleware logs itself. -/
def own (ctx : Ctx A) (stack : List StdFrame) (format : String) (args : List A) : Line A :=
  { ctx, prefixes := [], orphan := 0, kind := .lazyTracef, format, args, stack, direct := true }

def headerOwn (ctx : Ctx A) (r : HTTPRequest) (stack : List StdFrame) : List (Line A) :=
  (headerNames.filter fun h => r.header h ≠ "").map fun h => own ctx stack "%s: %s" [Arg.str h, Arg.str (r.header h)]

def firstOwn (ctx : Ctx A) (r : HTTPRequest) (stack : List StdFrame) : List (Line A) :=
  own ctx stack "%s %s %s" [Arg.str r.remoteAddr, Arg.str r.method, Arg.str r.url] :: headerOwn ctx r stack

def lastOwn (ctx : Ctx A) (num : Int → A) (code : Int) (bytes : Nat) (took : Duration) (stack : List StdFrame) : Line A :=
  own ctx stack "HTTP %d, %s, %s" [num code, Arg.str (String.ofList (Util.humanizeBytes bytes)), Arg.str (String.ofList (Util.humanizeDuration took))]

theorem own_acts {ctx : Ctx A} {tr : Tr A} (h : maybeGet ctx = some tr) (stack : List StdFrame) (format : String) (args : List A) :
    (own ctx stack format args).acts = tr.logActs .lazyTracef format args stack := by
  simp [own, Line.acts, Wrap.get, h]

theorem headers_acts {ctx : Ctx A} {tr : Tr A} (h : maybeGet ctx = some tr) (m : Serving A) (r : HTTPRequest) (stack : List StdFrame) :
    (m.headers tr r stack).acts = m.acts ++ (headerOwn ctx r stack).flatMap Line.acts ∧ (m.headers tr r stack).iw = m.iw := by
  unfold Serving.headers headerOwn
  generalize headerNames = l
  induction l generalizing m with
  | nil => simp
  | cons a l ih =>
    rw [List.foldl_cons]
    obtain ⟨h1, h2⟩ := ih (if r.header a ≠ "" then m.lazyTracef tr "%s: %s" [Arg.str a, Arg.str (r.header a)] stack else m)
    rw [h1, h2]
    by_cases ha : r.header a = ""
    · simp [ha]
    · simp [ha, Serving.lazyTracef, own_acts h]

theorem before_acts {made : Ctx A × Tr A × List (Act A)} (h : maybeGet made.1 = some made.2.1) (r : HTTPRequest) (w : Resp) (stack : List StdFrame) :
    (beforeHandler made r w stack).acts = made.2.2 ++ (firstOwn made.1 r stack).flatMap Line.acts ∧
    (beforeHandler made r w stack).iw = newInterceptor w := by
  unfold beforeHandler
  obtain ⟨h1, h2⟩ := headers_acts h (({ iw := newInterceptor w, acts := made.2.2 } : Serving A).lazyTracef made.2.1 "%s %s %s"
    [Arg.str r.remoteAddr, Arg.str r.method, Arg.str r.url] stack) r stack
  rw [h1, h2]
  simp [firstOwn, Serving.lazyTracef, own_acts h]

theorem steps_acts (ops : List (Does A)) (m : Serving A) : (ops.foldl Serving.step m).acts = m.acts ++ elseActs ops := by
  induction ops generalizing m with
  | nil => simp [elseActs]
  | cons op ops ih =>
    rw [List.foldl_cons, ih]
    cases op <;> simp [Serving.step, elseActs]

theorem steps_iw (ops : List (Does A)) (m : Serving A) (m' : Req1 Unit A) (h : m.iw = m'.iw) :
    (ops.foldl Serving.step m).iw = ((onWriter ops).foldl Req1.op m').iw := by
  induction ops generalizing m m' with
  | nil => exact h
  | cons op ops ih =>
    rw [List.foldl_cons]
    cases op with
    | acts l => exact ih _ _ h
    | writeHeader c => exact ih _ (m'.op (.writeHeader c)) (by simp [Serving.step, Req1.op, h])
    | write n => exact ih _ (m'.op (.write n)) (by simp [Serving.step, Req1.op, h])
    | flush => exact ih _ (m'.op .flush) (by simp [Serving.step, Req1.op, h])

/-- The actions of serving a request. -/
theorem handle_acts {made : Ctx A × Tr A × List (Act A)} (h : maybeGet made.1 = some made.2.1) (num : Int → A) (r : HTTPRequest) (w : Resp)
    (stack : List StdFrame) (next : Ctx A → List (Does A)) (o : Outcome) (took : Duration) :
    (handle made num r w stack next o took).1.acts = made.2.2 ++ (firstOwn made.1 r stack).flatMap Line.acts ++ elseActs (next made.1) ++
      (lastOwn made.1 num (reported w (onWriter (next made.1))).1 (reported w (onWriter (next made.1))).2 took stack).acts ++ made.2.1.finishActs := by
  obtain ⟨h1, h2⟩ := before_acts h r w stack
  unfold handle withDefer Serving.finish Serving.outcome Serving.lazyTracef lastOwn
  simp only [steps_acts, h1, own_acts h]
  rw [steps_iw (next made.1) _ { iw := newInterceptor w, calls := [] } h2]
  rfl

/-! ## Texts -/

section
variable [Render W A]

theorem text_request (hstr : ∀ (m : W) s, Render.arg m [] 's' (Arg.str s : A) = s.toList) (m : W) (a b c : String) :
    sprintf m "%s %s %s" [(Arg.str a : A), Arg.str b, Arg.str c] = a ++ " " ++ b ++ " " ++ c := by
  have e : "%s %s %s".toList = ['%', 's', ' ', '%', 's', ' ', '%', 's'] := rfl
  apply String.toList_inj.mp
  unfold sprintf
  rw [e]
  simp [printf, Stage.next, hstr, extraReport]

theorem text_header (hstr : ∀ (m : W) s, Render.arg m [] 's' (Arg.str s : A) = s.toList) (m : W) (a b : String) :
    sprintf m "%s: %s" [(Arg.str a : A), Arg.str b] = a ++ ": " ++ b := by
  have e : "%s: %s".toList = ['%', 's', ':', ' ', '%', 's'] := rfl
  apply String.toList_inj.mp
  unfold sprintf
  rw [e]
  simp [printf, Stage.next, hstr, extraReport]

theorem text_outcome (hstr : ∀ (m : W) s, Render.arg m [] 's' (Arg.str s : A) = s.toList) (num : Int → A)
    (hnum : ∀ (m : W) n, Render.arg m [] 'd' (num n) = (toString n).toList) (m : W) (c : Int) (b t : String) :
    sprintf m "HTTP %d, %s, %s" [num c, (Arg.str b : A), Arg.str t] = "HTTP " ++ toString c ++ ", " ++ b ++ ", " ++ t := by
  have e : "HTTP %d, %s, %s".toList = ['H', 'T', 'T', 'P', ' ', '%', 'd', ',', ' ', '%', 's', ',', ' ', '%', 's'] := rfl
  apply String.toList_inj.mp
  unfold sprintf
  rw [e]
  simp [printf, Stage.next, hstr, hnum, extraReport]

end

/-! ## The claim -/

section
variable [Render W A] [Humanize]

/-- C110.  A handler is wrapped with the middleware, with the `NewTrace` of a collector as constructor, and serves a request
whose context has no trace.  The handler logs with the context of the request, or with contexts derived from it, answers as it likes,
and returns or panics; meanwhile other goroutines do anything else.  While the request is being served, and after that, until the collector has
got as many newer traces in that category as it keeps, `trc search --id` prints
the trace of the request and nothing else.  Its first event is the request line, followed by one for each of the headers
`User-Agent`, `Accept` and `Content-Type` that the request has, and by the lines of the handler so far; once the request is served, it is finished and
has one last event, with the status and the size of the response that the interceptor has seen: of a handler that sets the status, if it does, before it
writes, and returns, those that the client receives. -/
theorem C110_found (settings : List Setting) (cap : Nat)
    (ctx : Ctx A) (hctx : maybeGet ctx = none) (a : Nat) (id source category : String) (ds : List (Decorator A)) (hd : ∀ d ∈ ds, d.Tame)
    (frames : List StdFrame) (made : Ctx A × Tr A × List (Act A)) (hmade : newTrace ctx a id source category ds frames = made)
    -- the request, and the handler: what it does, and what of it has been done
    (num : Int → A) (r : HTTPRequest) (resp : Resp) (stack : List StdFrame) (next : Ctx A → List (Does A)) (o : Outcome) (took : Duration)
    (served : Bool) (done : List (Does A)) (hdone : done <+: next made.1) (hserved : served = true → done = next made.1)
    (lines : List (Line A)) (hlines : ∀ l ∈ lines, Below made.1 l.ctx l.prefixes ∧ Wrap.Fits l.prefixes)
    (hlog : (elseActs done).filter (·.concerns a) = (lines.flatMap Line.acts).filter (·.concerns a))
    (hmax : (lines.length : Int) + 5 ≤ (Globals.after settings).traceMaxEvents)
    (hstr : ∀ (m : W) s, Render.arg m [] 's' (Arg.str s : A) = s.toList) (hnum : ∀ (m : W) n, Render.arg m [] 'd' (num n) = (toString n).toList)
    -- the execution of the program
    (ex : List (AEnv W × Act A)) (w : World A)
    (hrun : ({ globals := Globals.after settings, cats := Ring.newRBs (cap : Int) } : World A).run ex = some w)
    (hmine : (ex.map Prod.snd).filter (·.concerns a) = (if served then (handle made num r resp stack next o took).1.acts
      else (done.foldl Serving.step (beforeHandler made r resp stack)).acts).filter (·.concerns a))
    (hid : ∀ env, (env, .make a source category) ∈ ex → env.id = id)
    (hrecent : ∀ before env after, ex = before ++ (env, .retain category made.2.1) :: after →
      after.countP (fun p => p.2.retainsIn category) < cap)
    -- the servers
    (compile : Compile) (mulFrac : Nat → Nat → Nat → Nat) (size : JSON → Nat) (mime : List Char → Option String)
    (pre post : List (Site compile mulFrac size mime (Tr A))) (s : Remote) (l : Live compile mulFrac size mime (Tr A) s)
    (hview : ∀ look, ShownIn (W := W) w a (l.view made.2.1 look)) (hothers : ∀ v look, v.root ≠ a → (l.view v look).id ≠ id)
    (hrings : l.rings.Perm (w.cats.bufs.map Prod.snd))
    (helsewhere : ∀ s' ∈ pre ++ post, ∀ l', s'.2 = .inl l' → ∀ x ∈ l'.contents.flatten, (l'.view x .filter).id ≠ id)
    -- the command
    (srt : List Static → List Static) (hs : Sorts srt) (c : SearchFlags) (hc : c.filter = { ids := [id] })
    (req : SearchRequest) (problems : List String) (hn : c.request.normalize compile = some (req, problems))
    (hsize : size (encRequest req) ≤ 1048576) (hm : mime "application/json".toList = some "application/json")
    (out : Printed) (hout : searchExec compile srt c ((pre ++ ⟨s, .inl l⟩ :: post).map (·.1)) = some out) :
    ∃ st first headers said last, out.traces = [st] ∧ st.id = id ∧ st.source = source ∧ st.category = category ∧ st.finished = served ∧
      (st.errored = true ↔ ∃ l ∈ lines, isErr l.kind = true) ∧
      st.events = first :: (headers ++ said ++ last) ∧
      first.what = r.remoteAddr ++ " " ++ r.method ++ " " ++ r.url ∧ headers.map Event.what = headerTexts r ∧
      said.length = lines.length ∧
      (∀ (i : Nat) ev l, said[i]? = some ev → lines[i]? = some l → ev.isError = isErr l.kind ∧ ev.stack <+: programFrames l.stack ∧
        ∃ m : W, ev.what = prefixTexts m l.prefixes ++ sprintf m l.format l.args) ∧
      last.map Event.what = (if served then [outcomeText (reported resp (onWriter done)).1 (reported resp (onWriter done)).2 took] else []) ∧
      (served = true → o = .returned → resp.wroteHeader = false → resp.body = 0 → resp.head = false → StatusFirst (onWriter done) →
        last.map Event.what = [outcomeText (received resp (onWriter done)).1 (received resp (onWriter done)).2 took]) := by
  obtain ⟨ctx', tr, acts⟩ := made
  obtain ⟨ctx₁, tr₁, acts₁, e0, hg, -, -, -⟩ := newTrace_spec ctx hctx a id source category ds hd frames
  rw [hmade] at e0
  obtain ⟨rfl, rfl, rfl⟩ : ctx' = ctx₁ ∧ tr = tr₁ ∧ acts = acts₁ := by simpa using e0
  obtain ⟨code, bytes, hrep⟩ : ∃ code bytes, (code, bytes) = reported resp (onWriter done) := ⟨_, _, rfl⟩
  obtain ⟨ll, hll⟩ : ∃ ll, ll = (if served then [lastOwn ctx' num code bytes took stack] else []) := ⟨_, rfl⟩
  have hheaders : (headerOwn ctx' r stack).length ≤ 3 := by
    unfold headerOwn
    rw [List.length_map]
    exact Nat.le_trans (List.length_filter_le _ _) (by simp [headerNames])
  have hlll : ll.length ≤ 1 := by rw [hll]; split <;> simp
  have hown : ∀ x ∈ firstOwn ctx' r stack ++ ll, Below ctx' x.ctx x.prefixes ∧ Wrap.Fits x.prefixes ∧ isErr x.kind = false ∧ x.prefixes = [] := by
    intro x hx
    have : ∃ format args, x = own ctx' stack format args := by
      rw [hll] at hx
      unfold firstOwn headerOwn lastOwn at hx
      rcases List.mem_append.mp hx with h | h
      · rcases List.mem_cons.mp h with h | h
        · exact ⟨_, _, h⟩
        · obtain ⟨_, _, rfl⟩ := List.mem_map.mp h
          exact ⟨_, _, rfl⟩
      · split at h
        · exact ⟨_, _, List.mem_singleton.mp h⟩
        · cases h
    obtain ⟨format, args, rfl⟩ := this
    exact ⟨.here, (by intro p hp; cases hp), rfl, rfl⟩
  obtain ⟨st, start, calls, ended, h1, h2, h3, h4, h5, -, h7, h8, -, -, -, h12, h13, h14⟩ :=
    printed_new (W := W) served settings cap ctx hctx a id source category ds hd frames ctx' tr acts hmade
      (firstOwn ctx' r stack ++ lines ++ ll)
      (by
        intro x hx
        rw [List.append_assoc] at hx
        rcases List.mem_append.mp hx with h | h
        · have := hown x (List.mem_append_left _ h)
          exact ⟨this.1, this.2.1⟩
        · rcases List.mem_append.mp h with h | h
          · exact hlines x h
          · have := hown x (List.mem_append_right _ h)
            exact ⟨this.1, this.2.1⟩)
      (by
        simp only [List.length_append, firstOwn, List.length_cons]
        omega)
      ex w hrun
      (by
        rw [hmine]
        cases served with
        | true =>
          have hd' := hserved rfl
          rw [hd'] at hlog hrep
          simp only [if_true, handle_acts (made := (ctx', tr, acts)) hg, hll, List.flatMap_append, List.filter_append, hlog, ← hrep, List.flatMap_cons, List.flatMap_nil,
            List.append_nil, List.append_assoc]
        | false =>
          simp only [Bool.false_eq_true, if_false, steps_acts, (before_acts (made := (ctx', tr, acts)) hg r resp stack).1, hll, List.flatMap_append, List.filter_append, hlog,
            List.flatMap_nil, List.append_nil, List.append_assoc])
      hid hrecent compile mulFrac size mime pre post s l hview hothers hrings helsewhere srt hs c hc req problems hn hsize hm out hout
  -- every event, with its line
  have hev : ∀ (i : Nat) ev x, st.events[i]? = some ev → (firstOwn ctx' r stack ++ lines ++ ll)[i]? = some x →
      ev.isError = isErr x.kind ∧ ev.stack <+: programFrames x.stack ∧ ∃ m : W, ev.what = prefixTexts m x.prefixes ++ sprintf m x.format x.args := by
    intro i ev x g1 g2
    obtain ⟨q, hq⟩ : ∃ q, calls[i]? = some q := by
      have : i < calls.length := by rw [h8]; exact (List.getElem?_eq_some_iff.mp g2).1
      exact ⟨_, List.getElem?_eq_getElem this⟩
    obtain ⟨k1, -, k3, -, m, k5, -⟩ := h14 i ev x q g1 g2 hq
    exact ⟨k1, k3, m, k5⟩
  have hlen : st.events.length = 1 + (headerOwn ctx' r stack).length + lines.length + ll.length := by
    rw [h13]
    simp only [List.length_append, firstOwn, List.length_cons]
    omega
  obtain ⟨evs, hevs⟩ : ∃ evs, evs = st.events := ⟨_, rfl⟩
  rw [← hevs] at hev hlen
  have hsplit : ∃ first headers said last, evs = first :: (headers ++ said ++ last) ∧ headers.length = (headerOwn ctx' r stack).length ∧
      said.length = lines.length ∧ last.length = ll.length := by
    cases evs with
    | nil => rw [List.length_nil] at hlen; omega
    | cons first rest =>
      rw [List.length_cons] at hlen
      refine ⟨first, rest.take (headerOwn ctx' r stack).length, (rest.drop (headerOwn ctx' r stack).length).take lines.length,
        (rest.drop (headerOwn ctx' r stack).length).drop lines.length, ?_, ?_, ?_, ?_⟩
      · rw [List.append_assoc, List.take_append_drop, List.take_append_drop]
      · rw [List.length_take]; omega
      · rw [List.length_take, List.length_drop]; omega
      · rw [List.length_drop, List.length_drop]; omega
  obtain ⟨first, headers, said, last, rfl, n1, n2, n3⟩ := hsplit
  have htexts : ∀ (evs : List Event) (xs : List (Line A)) (texts : List String), evs.length = xs.length → xs.length = texts.length →
      (∀ (i : Nat) ev x, evs[i]? = some ev → xs[i]? = some x → ∀ t, texts[i]? = some t → ev.what = t) → evs.map Event.what = texts := by
    intro evs xs texts g1 g2 g3
    apply List.ext_getElem (by rw [List.length_map]; omega)
    intro i i1 i2
    rw [List.length_map] at i1
    rw [List.getElem_map]
    exact g3 i _ _ (List.getElem?_eq_getElem i1) (List.getElem?_eq_getElem (by omega)) _ (List.getElem?_eq_getElem i2)
  have hfirst : first.what = r.remoteAddr ++ " " ++ r.method ++ " " ++ r.url := by
    obtain ⟨-, -, m, e⟩ := hev 0 first _ rfl rfl
    rw [e, show (own ctx' stack "%s %s %s" [Arg.str r.remoteAddr, Arg.str r.method, Arg.str r.url] : Line A).prefixes = [] from rfl]
    simp only [own, text_request hstr]
    simp [prefixTexts]
  have hhead : headers.map Event.what = headerTexts r := by
    refine htexts headers (headerOwn ctx' r stack) (headerTexts r) n1 (by simp [headerOwn, headerTexts, headerNames]) ?_
    intro i ev x g1 g2 t g3
    have hi : i < headers.length := (List.getElem?_eq_some_iff.mp g1).1
    have hi' : i < (headerOwn ctx' r stack).length := by omega
    obtain ⟨-, -, m, e⟩ := hev (i + 1) ev x (by
      rw [List.getElem?_cons_succ, List.append_assoc, List.getElem?_append_left hi, g1]) (by
      simp only [firstOwn, List.cons_append, List.getElem?_cons_succ, List.append_assoc]
      rw [List.getElem?_append_left hi', g2])
    unfold headerTexts at g3
    unfold headerOwn headerNames at g2
    rw [List.getElem?_map] at g2 g3
    obtain ⟨h, g4, rfl⟩ := Option.map_eq_some_iff.mp g2
    rw [g4] at g3
    obtain rfl := Option.some.inj g3
    rw [e]
    simp only [own, text_header hstr]
    simp [prefixTexts]
  have hlast : last.map Event.what = (if served then [outcomeText code bytes took] else []) := by
    refine htexts last ll _ n3 (by rw [hll]; split <;> rfl) ?_
    intro i ev x g1 g2 t g3
    have hi : i < last.length := (List.getElem?_eq_some_iff.mp g1).1
    obtain ⟨-, -, m, e⟩ := hev (headers.length + said.length + i + 1) ev x (by
      rw [List.getElem?_cons_succ, List.getElem?_append_right (by rw [List.length_append]; omega), List.length_append, Nat.add_sub_cancel_left, g1]) (by
      simp only [firstOwn, List.cons_append, List.getElem?_cons_succ]
      rw [List.getElem?_append_right (by rw [List.length_append]; omega), List.length_append, ← n1, ← n2, Nat.add_sub_cancel_left, g2])
    cases served with
    | false => rw [hll] at g2; simp at g2
    | true =>
      rw [if_pos rfl] at g3
      rw [hll, if_pos rfl] at g2
      have hi0 : i = 0 := by rw [n3, hll, if_pos rfl, List.length_singleton] at hi; omega
      subst hi0
      obtain rfl := Option.some.inj g2
      obtain rfl := Option.some.inj g3
      rw [e]
      simp only [lastOwn, own, text_outcome hstr num hnum]
      simp [prefixTexts, outcomeText]
  refine ⟨st, first, headers, said, last, h1, h2, h3, h4, h5, ?_, hevs.symm, hfirst, hhead, n2, ?_, ?_, ?_⟩
  · rw [h12]
    constructor
    · rintro ⟨x, hx, he⟩
      rw [List.append_assoc] at hx
      rcases List.mem_append.mp hx with h | h
      · rw [(hown x (List.mem_append_left _ h)).2.2.1] at he; cases he
      · rcases List.mem_append.mp h with h | h
        · exact ⟨x, h, he⟩
        · rw [(hown x (List.mem_append_right _ h)).2.2.1] at he; cases he
    · rintro ⟨x, hx, he⟩
      exact ⟨x, List.mem_append_left _ (List.mem_append_right _ hx), he⟩
  · intro i ev x g1 g2
    have hi : i < said.length := (List.getElem?_eq_some_iff.mp g1).1
    refine hev (headers.length + i + 1) ev x ?_ ?_
    · rw [List.getElem?_cons_succ, List.append_assoc, List.getElem?_append_right (by omega), Nat.add_sub_cancel_left, List.getElem?_append_left hi, g1]
    · simp only [firstOwn, List.cons_append, List.getElem?_cons_succ, List.append_assoc]
      rw [List.getElem?_append_right (by omega), ← n1, Nat.add_sub_cancel_left, List.getElem?_append_left (by omega), g2]
  · rw [hlast, ← hrep]
  · intro hse _ hw hb hh hsf
    rw [hlast, if_pos hse]
    have e1 := C66_status_partial resp hw (onWriter done) hsf
    have e2 := C66_bytes_partial resp hb hh (onWriter done)
    rw [← hrep] at e1 e2
    simp only at e1 e2
    rw [e1, e2]

end

end Trc.Web

/-! ## Example -/

namespace Trc.Web.Witness.Middleware

open Core Core.Spec Wrap Wrap.Witness Fmt Cmd

/-- `GET /x` from 1.2.3.4:5, with one of the headers, is answered with 404 and seven bytes by a handler that logs a line and panics later. -/
def made : Ctx String × Tr String × List (Act String) := newTrace .background 0 "m" "default" "cat" [] (stack 2)
def request : HTTPRequest :=
  { remoteAddr := "1.2.3.4:5", method := "GET", url := "/x", header := fun h => if h = "Accept" then "text/html" else "" }
def line : Line String := ⟨.derived made.1, [], 8, .errorf, "no %s", ["such thing"], stack 3, false⟩
def next (_ : Ctx String) : List (Does String) := [.acts line.acts, .writeHeader 404, .write 7, .writeHeader 500]
def served : Serving String := (handle made (fun n => toString n) request {} (stack 2) next .panicked 1500).1
def at_ (n : Int) (id : String) : AEnv Unit := { now := ⟨n, none⟩, w := (), id, subscribed := true }
def run : List (AEnv Unit × Act String) := served.acts.map fun act => (at_ 3 "m", act)
def final : Option (World String) := ({ globals := Globals.after [], cats := Ring.newRBs ((10 : Nat) : Int) } : World String).run run

def seen : Option (CoreTrace String × List Event) := do
  let w ← final
  let t ← w.traces 0
  let evs ← t.events' (at_ 9 "").toEnv
  return (t, evs)

def shown (v : Tr String) (_ : Look) : Static :=
  if v.root = 0 then (seen.map fun p => staticOf p.1 (at_ 9 "").now p.2).getD default else default

def server (rings : List (Ring.RB (Tr String))) : Remote :=
  { uri := "up", server := handleSearch (fun _ => .error "") (fun _ _ _ => 0) (fun _ => 0) acceptsJSON (fun _ => true)
      (collectorSearcher (fun _ => .error "") sortNewest "s" shown rings 0) }

def flags : SearchFlags := { filter := { ids := ["m"] }, stackDepth := 1 }

def printed : Option Printed := do
  let w ← final
  searchExec (fun _ => .error "") sortNewest flags [server (w.cats.bufs.map Prod.snd)]

theorem seen_some : seen.isSome = true := by decide +kernel
theorem printed_some : printed.isSome = true := by decide +kernel

theorem shown_mine (w : World String) (hw : final = some w) (look : Look) : ShownIn (W := Unit) w 0 (shown made.2.1 look) := by
  obtain ⟨⟨t, evs⟩, hs⟩ := Option.isSome_iff_exists.mp seen_some
  have hs' := hs
  unfold seen at hs'
  rw [hw] at hs'
  obtain ⟨w', hw', hs'⟩ := Option.bind_eq_some_iff.mp hs'
  obtain rfl := Option.some.inj hw'
  obtain ⟨t', ht, hs'⟩ := Option.bind_eq_some_iff.mp hs'
  obtain ⟨evs', he, hs'⟩ := Option.bind_eq_some_iff.mp hs'
  obtain ⟨rfl, rfl⟩ := Prod.mk.inj (Option.some.inj hs')
  refine ⟨t', (at_ 9 "").toEnv, evs', ht, he, ?_⟩
  have h0 : made.2.1.root = 0 := rfl
  unfold shown
  rw [if_pos h0, hs]
  rfl

/-- The hypotheses are met, and what is printed. -/
example : ∃ out st first headers said last, printed = some out ∧ out.traces = [st] ∧ st.finished = true ∧ st.errored = true ∧
    st.events = first :: (headers ++ said ++ last) ∧ first.what = "1.2.3.4:5 GET /x" ∧ headers.map Event.what = ["Accept: text/html"] ∧
    said.length = 1 ∧ last.map Event.what = ["HTTP 404, 7.0B, 1µs"] := by
  obtain ⟨out, hout⟩ := Option.isSome_iff_exists.mp printed_some
  have hout' := hout
  unfold printed at hout'
  obtain ⟨w, hw, hout'⟩ := Option.bind_eq_some_iff.mp hout'
  obtain ⟨rb, g1, g2⟩ := Ring.rep_exec (α := Tr String) 10 [.add made.2.1]
  have hb : w.cats.bufs.map Prod.snd = [rb] := by
    have e : final.map (fun w => w.cats.bufs.map Prod.snd) = (Ring.exec ((10 : Nat) : Int) [.add made.2.1]).map (fun p => [p.1]) := rfl
    rw [hw, g1] at e
    exact Option.some.inj e
  let l : Live (fun _ => .error "") (fun _ _ _ => 0) (fun _ => 0) acceptsJSON (Tr String) (server (w.cats.bufs.map Prod.snd)) :=
    { source := "s", srt := sortNewest, sorts := sortNewest_ok, view := shown, rings := w.cats.bufs.map Prod.snd
      contents := [[made.2.1]]
      holds := ⟨by rw [hb]; simp only [List.map_cons, List.map_nil, Ring.walkAll_spec g2]; rfl, by
        intro r hr
        rw [hb, List.mem_singleton] at hr
        subst hr
        exact ⟨10, _, _, g1⟩⟩
      distinct := by simp
      comparable := ⟨false, by
        intro t ht
        simp only [List.flatten_cons, List.flatten_nil, List.append_nil, List.map_cons, List.map_nil, List.mem_cons, List.not_mem_nil, or_false] at ht
        rw [ht]
        decide +kernel⟩
      took := 0, renders := fun _ => true, server := rfl }
  obtain ⟨req, problems, hn⟩ : ∃ req problems, flags.request.normalize (fun _ => .error "") = some (req, problems) := ⟨_, _, rfl⟩
  have hmine : run.map Prod.snd = served.acts := by
    unfold run
    rw [List.map_map]
    exact List.map_id' _
  obtain ⟨st, first, headers, said, last, h1, h2, h3, h4, h5, h6, h7, h8, h9, h10, -, h12, -⟩ :=
    C110_found (W := Unit) [] 10 .background rfl 0 "m" "default" "cat" [] (by simp) (stack 2) made rfl (fun n => toString n) request {} (stack 2) next .panicked
      1500 true (next made.1) (List.prefix_refl _) (fun _ => rfl) [line]
      (by
        intro x hx
        rw [List.mem_singleton.mp hx]
        exact ⟨.derived .here, by intro p hp; cases hp⟩)
      (by simp [elseActs, next]) (by decide) (fun _ _ => rfl) (fun _ _ => rfl) run w hw (by rw [hmine]; rfl)
      (by
        intro e he
        obtain ⟨act, -, e'⟩ := List.mem_map.mp he
        rw [← (Prod.mk.inj e').1]
        rfl)
      (by
        intro before e after h
        have h0 : run.countP (fun p => p.2.retainsIn "cat") = 1 := by decide +kernel
        rw [h, List.countP_append, List.countP_cons] at h0
        omega)
      (fun _ => .error "") (fun _ _ _ => 0) (fun _ => 0) acceptsJSON [] [] (server (w.cats.bufs.map Prod.snd)) l (shown_mine w hw)
      (by
        intro v look hv
        show (shown v look).id ≠ "m"
        unfold shown
        rw [if_neg hv]
        decide)
      (List.Perm.refl _) (by simp) sortNewest sortNewest_sorts flags rfl req problems hn (by simp) (by decide) out hout'
  refine ⟨out, st, first, headers, said, last, hout, h1, h5, h6.mpr ⟨line, by simp, rfl⟩, h7, h8, ?_, h10, ?_⟩
  · rw [h9]; decide +kernel
  · rw [h12]; decide +kernel

/-- This handler sets the status before it writes. -/
example : StatusFirst (onWriter (next made.1)) ∧ received {} (onWriter (next made.1)) = (404, 7) :=
  ⟨.first (pre := []) (post := [_, _]) rfl (by simp) (Or.inr ⟨by decide, by decide⟩), by decide +kernel⟩

end Trc.Web.Witness.Middleware
