import Verif.Props.Shown
import Verif.Props.SearchEnd
import Verif.Props.EventText
import Verif.Props.Render

/-!
# C123: what a program logs is what its page shows
-/

set_option linter.unusedVariables false

namespace Trc.Web

open Core Core.Spec Fmt Wrap

/-- The query of the link of a trace. -/
theorem traceLink_parse (id : String) (h : Plain (bytesOf id)) : parseQuery (followed (traceLink id)) = [(bytesOf "id", bytesOf id)] := by
  have hid : Plain (bytesOf "id") := plain_iff "id" (by decide +kernel)
  have hsafe : Safe (bytesOf id) := fun c hc => by obtain ⟨a, b, c, _, e, f⟩ := unreserved_clean (h.2 c hc); exact ⟨a, b, c, f, e⟩
  have hmeans : Means (bytesOf "id=" ++ bytesOf id) [(bytesOf "id", bytesOf id)] := by
    have : bytesOf "id=" = bytesOf "id" ++ [ch '='] := by decide +kernel
    rw [this, List.append_assoc, List.singleton_append]
    exact means_one _ _ hid hsafe
  have := link_parse hmeans .name
  simpa [Cell.suffix, Cell.values, traceLink] using this

/-- What a browser sends when the link of a trace is followed. -/
def click (id : String) (accept : List Char) : SearchHTTP :=
  { neg := { rawQuery := followed (traceLink id), accept := [accept] }, isJSON := false, body := none }

/-- A character as the browser shows it. -/
def visible (c : Char) : Char := if c = '\x00' then '�' else c

/-- The text that the page has in the row of an event, traces.html:431. -/
def rowText (m : RenderEvent) : List Char := textContent (readMarkup .data (eventMarkup m.what.toList))

section
variable {W A : Type} [Render W A] [Arg A] [Humanize]

/-- **C123** A program traces and logs with eztrc, as in `C95_found`, and its collector is served.  Who follows the link of the trace
gets a page with that trace and no other: its source and category, whether it has finished, and its rows: the start, a row for each line
that was logged, in order, and the end.  The row of a line has the text of the line and of the prefixes before it, its time, the time
since the start, whether it is an error, and frames of the program alone; nothing in the text is markup. -/
theorem C123_page (fin : Bool) (settings : List Setting) (cap : Nat)
    (ctx : Ctx A) (hctx : maybeGet ctx = none) (a : Nat) (id source category : String) (ds : List (Decorator A))
    (hd : ∀ d ∈ ds, d.Tame) (stack : List StdFrame) (ctx' : Ctx A) (tr : Tr A) (acts : List (Act A))
    (hnew : ezNew ctx a id source category ds stack = (ctx', tr, acts))
    (lines : List (Line A)) (hlines : ∀ l ∈ lines, Below ctx' l.ctx l.prefixes ∧ Wrap.Fits l.prefixes)
    (hmax : (lines.length : Int) ≤ (Globals.after settings).traceMaxEvents)
    (ex : List (AEnv W × Act A)) (w : World A)
    (hrun : ({ globals := Globals.after settings, cats := Ring.newRBs (cap : Int) } : World A).run ex = some w)
    (hmine : (ex.map Prod.snd).filter (·.concerns a) = (acts ++ lines.flatMap Line.acts ++ if fin then tr.finishActs else []).filter (·.concerns a))
    (hid : ∀ env, (env, .make a source category) ∈ ex → env.id = id)
    (hrecent : ∀ before env after, ex = before ++ (env, .retain category tr) :: after →
      after.countP (fun p => p.2.retainsIn category) < cap)
    -- the server
    (compile : Compile) (mulFrac : Nat → Nat → Nat → Nat) (size : JSON → Nat) (mime : List Char → Option String)
    (srt : List Static → List Static) (hs : SortOK srt) (name : String) (view : Tr A → Look → Static)
    (hview : ∀ look, ShownIn (W := W) w a (view tr look)) (hothers : ∀ v look, v.root ≠ a → (view v look).id ≠ id)
    (rings : List (Ring.RB (Tr A))) (hrings : rings.Perm (w.cats.bufs.map Prod.snd)) (contents : List (List (Tr A)))
    (hb : Buffers rings contents) (took : Duration) (o : Orders)
    -- the browser
    (hplain : Plain (bytesOf id)) (accept : List Char)
    (haccept : requestExplicitlyAccepts mime { accept := [accept] } ["text/html"] = true) :
    ∃ data st start calls ended,
      handleSearch compile mulFrac size mime (shows o) (collectorSearcher compile srt name view rings took) (click id accept) =
        some ⟨200, .page data⟩ ∧
      data.response.traces = [st] ∧ data.response.matchCount = 1 ∧
      st.id = id ∧ st.source = source ∧ st.category = category ∧
      (start, Act.make a source category) ∈ ex ∧ callsOn a ex = calls ++ ended ∧ calls.length = lines.length ∧
      ended.map Prod.snd = (if fin then [.finish] else []) ∧
      (st.errored = true ↔ ∃ l ∈ lines, isErr l.kind = true) ∧
      ∃ first rows last, renderEvents st = first :: rows ++ [last] ∧ rows.length = lines.length ∧
        first.isStart = true ∧ first.when_ = start.now ∧
        last.isEnd = true ∧ last.what = (if fin then "finished" else "active...") ∧ (∀ e ∈ ended, last.cumulative = e.1.now.sub start.now) ∧
        ∀ (i : Nat) row l c, rows[i]? = some row → lines[i]? = some l → calls[i]? = some c →
          row.index = (i : Int) ∧ row.when_ = c.1.now ∧ row.cumulative = c.1.now.sub start.now ∧ row.isError = isErr l.kind ∧
          row.stack <+: programFrames l.stack ∧
          (∃ m : W, rowText row = (prefixTexts m l.prefixes ++ sprintf m l.format l.args).toList.map visible ∧ (isLazy l.kind = false → m = c.1.w)) ∧
          ∀ t ∈ tagsIn (readMarkup .data (eventMarkup row.what.toList)), t = "wbr".toList := by
  -- the request
  have hreq : readRequest mulFrac size (click id accept) = some { filter := { ids := [id] }, limit := 10 } := by
    show some (requestOfURL mulFrac (followed (traceLink id))) = _
    rw [(C89_trace_link mulFrac id hplain).1]
  obtain ⟨req₁, hn⟩ := normalize_total compile { filter := { ids := [id] }, limit := 10 }
  have hf₁ : req₁.filter = { ids := [id] } := by
    unfold SearchRequest.normalize at hn
    cases hb : normalizeBucketing ({ filter := { ids := [id] }, limit := 10 } : SearchRequest).bucketing with
    | none => rw [hb] at hn; cases hn
    | some b =>
      rw [hb] at hn
      simp only [bind, Option.bind_some, pure, Option.some.injEq, Prod.mk.injEq] at hn
      rw [← hn.1]
      rfl
  -- the search
  obtain ⟨res, st, start, calls, ended, h1, h2, h3, h4, h5, h6, h7, h8, h9, h10, h11, h12, h13, h14, h15, h16⟩ :=
    found_new (W := W) fin settings cap ctx hctx a id source category ds hd _ ctx' tr acts hnew lines hlines hmax ex w hrun hmine hid hrecent
      compile srt hs name req₁ hf₁ view hview hothers rings hrings
  have hfresh : req₁.filter.Fresh compile := by rw [hf₁]; intro re h; cases h
  obtain ⟨req₂, p₂, n2, a2⟩ := collector_answer (compile := compile) srt name view rings contents hb took req₁ hfresh
  have hsearch : collectorSearcher compile srt name view rings took req₁ =
      some (req₂, .ok (some { res.toResponse with request := some req₂, duration := took })) := by
    unfold collectorSearcher
    rw [n2, h1]
    rfl
  obtain ⟨data, d1, d2, ss, d3, d4⟩ := searchData_ok hn a2
  have dres : data.response = { res.toResponse with request := some req₂, duration := took } := by
    unfold searchData at d1
    rw [hn] at d1
    simp only [Option.bind_eq_bind, Option.bind_some, hsearch, takeResult, responseProblems, checkCategories] at d1
    simp only [SearchResponse.toResponse] at d1
    split at d1
    · obtain rfl := Option.some.inj d1; rfl
    · obtain rfl := Option.some.inj d1; rfl
  have hhtml : renderResponse mime (click id accept).neg = .html := by
    unfold renderResponse
    have hj : (parseQuery (click id accept).neg.rawQuery).has (bytesOf "json") = false := by
      show (parseQuery (followed (traceLink id))).has _ = false
      rw [traceLink_parse id hplain]
      have : bytesOf "id" ≠ bytesOf "json" := by decide +kernel
      simp [Values.has, vals_one, this]
    have ha : requestExplicitlyAccepts mime (click id accept).neg ["text/html"] = true := haccept
    simp only [hj, ha, Bool.not_false, Bool.and_true, if_true]
  have hrender : render mime (shows o) (click id accept) data = ⟨200, .page data⟩ := by
    have := render_ok (mime := mime) o (click id accept) data ss d3 (by rw [d2]; exact d4)
    unfold render at this ⊢
    rw [hhtml] at this ⊢
    simp only at this ⊢
    rw [this]
  obtain ⟨first, rows, last, r1, r2, -, -, r3, -, r4, -, -, r5, r6, r7, r8⟩ := C67_shape st
  refine ⟨data, st, start, calls, ended, ?_, by rw [dres]; exact h2, by rw [dres]; exact h3, h4, h5, h6, h8, h9, h10, h11, h14,
    first, rows, last, r1, by rw [r7, h15], r2, by rw [r3, h12], r4, by rw [r6, h7], fun e he => by rw [r5, h13 e he], ?_⟩
  · unfold handleSearch
    rw [hreq]
    simp only [d1, Option.map_some, hrender]
  · intro i row l c g1 g2 g3
    have hi : i < st.events.length := by
      have := (List.getElem?_eq_some_iff.mp g1).1
      omega
    obtain ⟨row', q1, -, -, q2, q3, q4, q5, q6, q7⟩ := r8 i st.events[i] (List.getElem?_eq_getElem hi)
    rw [g1] at q1
    obtain rfl := Option.some.inj q1
    obtain ⟨k1, k2, k3, m, k4, k5⟩ := h16 i _ l c (List.getElem?_eq_getElem hi) g2 g3
    obtain ⟨t1, t2⟩ := C92_shown row.what.toList
    refine ⟨q2, by rw [q3, k2], by rw [q7, k2, h12], by rw [q5, k1], by rw [q6]; exact k3, ⟨m, ?_, k5⟩, t2⟩
    unfold rowText
    rw [t1, q4, k4]
    rfl

end

end Trc.Web

/-! ## Example -/

namespace Trc.Wrap.Witness.Easy

open Web

/-- What is needed of package mime. -/
private def acceptsHTML : List Char → Option String := fun l => if l = "text/html".toList then some "text/html" else none

/-- The program of the example of C95, and a click on the link of its trace: the page has five rows. -/
example (o : Orders) : ∃ w data st, final = some w ∧
    handleSearch (fun _ => .error "") (fun _ _ _ => 0) (fun _ => 0) acceptsHTML (shows o)
      (collectorSearcher (fun _ => .error "") sortNewest "s" shown (w.cats.bufs.map Prod.snd) 0) (click "m" "text/html".toList) = some ⟨200, .page data⟩ ∧
    data.response.traces = [st] ∧ (renderEvents st).length = 5 := by
  obtain ⟨w, hw⟩ := Option.isSome_iff_exists.mp final_some
  obtain ⟨rb, h1, h2⟩ := Ring.rep_exec (α := Tr String) 10 [.add mine.2.1, .add theirs.2.1]
  have hb : w.cats.bufs.map Prod.snd = [rb] := by
    have e : final.map (fun w => w.cats.bufs.map Prod.snd) = (Ring.exec ((10 : Nat) : Int) [.add mine.2.1, .add theirs.2.1]).map (fun p => [p.1]) := rfl
    rw [hw, h1] at e
    exact Option.some.inj e
  have hbuf : Buffers (w.cats.bufs.map Prod.snd) [[theirs.2.1, mine.2.1]] := by
    refine ⟨by rw [hb]; simp only [List.map_cons, List.map_nil, Ring.walkAll_spec h2]; rfl, ?_⟩
    intro r hr
    rw [hb, List.mem_singleton] at hr
    subst hr
    exact ⟨10, _, _, h1⟩
  obtain ⟨data, st, start, calls, ended, d1, d2, -, -, -, -, -, -, -, -, -, first, rows, last, r1, r2, -⟩ :=
    C123_page (W := Unit) true [] 10 .background rfl 0 "m" "default" "cat" [logDecorator 1]
      (by intro d hd; rw [List.mem_singleton.mp hd]; exact logDecorator_tame 1) (stack 2) mine.1 mine.2.1 mine.2.2 (by rw [mine]) lines
      lines_ok (by decide) run w (by rw [final] at hw; exact hw) only_mine
      (by
        intro e he
        have h := List.any_eq_false.mp ids _ he
        simpa [wrong] using h)
      (by
        intro before e after h
        have h0 := count
        rw [h, List.countP_append, List.countP_cons] at h0
        omega)
      (fun _ => .error "") (fun _ _ _ => 0) (fun _ => 0) acceptsHTML sortNewest sortNewest_ok "s" shown (shown_mine w hw)
      (by
        intro v look hv
        unfold shown
        rw [if_neg hv]
        decide)
      (w.cats.bufs.map Prod.snd) (List.Perm.refl _) _ hbuf 0 o (plain_iff "m" (by decide +kernel)) "text/html".toList (by decide +kernel)
  refine ⟨w, data, st, hw, d1, d2, ?_⟩
  rw [r1]
  simp only [List.cons_append, List.length_cons, List.length_append, List.length_nil, r2]
  rfl

end Trc.Wrap.Witness.Easy
