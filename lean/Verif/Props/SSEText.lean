import Verif.Web.SSEText
import Verif.Props.Output
import Verif.Props.StreamClient

/-!
# C127: any reader of server-sent events can read the stream

The reader is that of the HTML standard, 9.2.5 and 9.2.6, of a stream in UTF-8 without a byte order mark; IDs and retry times do not
matter here.
-/

set_option linter.unusedVariables false

namespace Trc.Web

open Trc.Broker
open Cmd (Seconds readTrace completeLines linesFrom)

/-! ## Specification -/

/-- The lines of a text that have an end: a line feed, a carriage return or both.  The beginning of the first line is given in
reverse. -/
def streamLines (acc : List Char) : List Char → List (List Char)
  | [] => []
  | '\r' :: '\n' :: r => acc.reverse :: streamLines [] r
  | c :: r => if c = '\n' ∨ c = '\r' then acc.reverse :: streamLines [] r else streamLines (c :: acc) r

/-- A line that is not empty and does not begin with a colon: a name, and a value if there is a colon, without a space at its
beginning. -/
def fieldOf (line : List Char) : List Char × List Char :=
  (line.takeWhile (· ≠ ':'),
    match line.dropWhile (· ≠ ':') with
    | _ :: ' ' :: v => v
    | _ :: v => v
    | [] => [])

/-- What a reader makes of the lines, with the type and the data that it has so far: an event for each empty line after data. -/
def eventsOf : List Char → List Char → List (List Char) → List (List Char × List Char)
  | _, _, [] => []
  | type, data, line :: ls =>
    if line = [] then
      (if data = [] then [] else [(if type = [] then ['m', 'e', 's', 's', 'a', 'g', 'e'] else type, data.dropLast)]) ++ eventsOf [] [] ls
    else if (fieldOf line).1 = ['e', 'v', 'e', 'n', 't'] then eventsOf (fieldOf line).2 data ls
    else if (fieldOf line).1 = ['d', 'a', 't', 'a'] then eventsOf type (data ++ (fieldOf line).2 ++ ['\n']) ls
    else eventsOf type data ls

/-- The events of a text, each with its type and its data. -/
def sseEvents (s : List Char) : List (List Char × List Char) := eventsOf [] [] (streamLines [] s)

/-- broker.go:112-121 -/
def streamStatsTy : Ty := struct [("skips", .num), ("sends", .num), ("drops", .num)]
/-- trace_server.go:293-296 -/
def initTy : Ty := struct [("filter", filterTy), ("sendbuf", .num)]

/-- What a client that knows the types takes an event for. -/
def eventRead (ev : List Char × List Char) : SSE :=
  { type := String.ofList ev.1
    data := (readJSON ev.2).bind fun j =>
      view j (if ev.1 = ['i', 'n', 'i', 't'] then initTy else if ev.1 = ['s', 't', 'a', 't', 's'] then streamStatsTy else traceTy) }

/-! ## Lemmas -/

theorem split_clean (l : List Char) (h : '\n' ∉ l) : splitLines l = [l] := by
  induction l with
  | nil => rfl
  | cons c l ih =>
    rw [splitLines, if_neg (by rintro rfl; exact h (by simp)), ih fun hc => h (by simp [hc])]

/-- The lines of an event. -/
def linesOf (kind data : List Char) : List (List Char) :=
  [['e', 'v', 'e', 'n', 't', ':', ' '] ++ kind, ['d', 'a', 't', 'a', ':', ' '] ++ data, []]

theorem encode_lines (kind data : List Char) (hk : '\n' ∉ kind) (hd : '\n' ∉ data) (hk0 : kind ≠ []) (hd0 : data ≠ []) :
    encodeEvent kind data = (linesOf kind data).flatMap fun l => l ++ ['\n'] := by
  unfold encodeEvent writeField linesOf
  rw [if_neg hk0, split_clean _ hk, split_clean _ hd]
  simp [hk0, hd0]

theorem stream_lines (s acc : List Char) (h : '\r' ∉ s) : streamLines acc s = linesFrom acc s := by
  induction s generalizing acc with
  | nil => rfl
  | cons c r ih =>
    have hc : c ≠ '\r' := by rintro rfl; exact h (by simp)
    have hr : '\r' ∉ r := fun hc => h (by simp [hc])
    rw [linesFrom]
    rw [streamLines.eq_3 _ _ _ (by rintro _ rfl; exact absurd rfl hc)]
    by_cases hn : c = '\n'
    · rw [if_pos hn, if_pos (.inl hn), ih _ hr]
    · rw [if_neg hn, if_neg (by rintro (h | h); exacts [hn h, hc h]), ih _ hr]

theorem field_event (kind : List Char) : fieldOf (['e', 'v', 'e', 'n', 't', ':', ' '] ++ kind) = (['e', 'v', 'e', 'n', 't'], kind) := rfl
theorem field_data (d : List Char) : fieldOf (['d', 'a', 't', 'a', ':', ' '] ++ d) = (['d', 'a', 't', 'a'], d) := rfl

/-- Reading as many lines as there are. -/
theorem events_take {α : Type} (kind data : α → List Char) (l : List α) (hk : ∀ x ∈ l, kind x ≠ []) (n : Nat) :
    ∃ k, k ≤ l.length ∧ eventsOf [] [] ((l.flatMap fun x => linesOf (kind x) (data x)).take n) = (l.take k).map (fun x => (kind x, data x)) ∧
      ((l.flatMap fun x => linesOf (kind x) (data x)).length ≤ n → k = l.length) := by
  induction l generalizing n with
  | nil => exact ⟨0, Nat.le_refl 0, by simp [eventsOf], fun _ => rfl⟩
  | cons x l ih =>
    have hx := hk x (by simp)
    rw [List.flatMap_cons]
    unfold linesOf at ih ⊢
    simp only [List.cons_append, List.nil_append]
    have e1 : ∀ t d ls, eventsOf t d (('e' :: 'v' :: 'e' :: 'n' :: 't' :: ':' :: ' ' :: kind x) :: ls) = eventsOf (kind x) d ls := by
      intro t d ls
      rw [eventsOf, if_neg (by simp)]
      exact if_pos rfl
    have e2 : ∀ t d ls, eventsOf t d (('d' :: 'a' :: 't' :: 'a' :: ':' :: ' ' :: data x) :: ls) = eventsOf t (d ++ data x ++ ['\n']) ls := by
      intro t d ls
      rw [eventsOf, if_neg (by simp)]
      exact (if_neg (show ¬ (['d', 'a', 't', 'a'] : List Char) = ['e', 'v', 'e', 'n', 't'] by decide)).trans (if_pos rfl)
    match n with
    | 0 => exact ⟨0, by omega, by simp [eventsOf], by simp⟩
    | 1 => exact ⟨0, by omega, by rw [List.take_succ_cons, List.take_zero, e1]; simp [eventsOf], by simp⟩
    | 2 => exact ⟨0, by omega, by rw [List.take_succ_cons, List.take_succ_cons, List.take_zero, e1, e2]; simp [eventsOf], by simp⟩
    | n + 3 =>
      obtain ⟨k, i1, i2, i3⟩ := ih (fun y hy => hk y (by simp [hy])) n
      refine ⟨k + 1, by rw [List.length_cons]; omega, ?_, ?_⟩
      · rw [List.take_succ_cons, List.take_succ_cons, List.take_succ_cons, e1, e2, eventsOf, if_pos rfl, if_neg (by simp), if_neg hx,
          List.take_succ_cons, List.map_cons]
        simp only [List.cons_append, List.nil_append] at i2
        rw [i2]
        simp
      · intro hl
        simp only [List.cons_append, List.nil_append] at i3
        rw [i3 (by simp only [List.length_cons] at hl; omega), List.length_cons]

/-- A text cut somewhere has the first of the events. -/
theorem sse_prefix {α : Type} (kind data : α → List Char) (l : List α) (hk : ∀ x ∈ l, kind x ≠ [] ∧ '\n' ∉ kind x ∧ '\r' ∉ kind x)
    (hd : ∀ x ∈ l, data x ≠ [] ∧ '\n' ∉ data x ∧ '\r' ∉ data x) (p : List Char) (hp : p <+: l.flatMap fun x => encodeEvent (kind x) (data x)) :
    ∃ k, k ≤ l.length ∧ sseEvents p = (l.take k).map (fun x => (kind x, data x)) ∧
      (p = l.flatMap (fun x => encodeEvent (kind x) (data x)) → k = l.length) := by
  have e : l.flatMap (fun x => encodeEvent (kind x) (data x)) = (l.flatMap fun x => linesOf (kind x) (data x)).flatMap fun s => s ++ ['\n'] := by
    rw [List.flatMap_assoc]
    exact List.flatMap_congr fun x hx => encode_lines _ _ (hk x hx).2.1 (hd x hx).2.1 (hk x hx).1 (hd x hx).1
  have hl : ∀ s ∈ l.flatMap (fun x => linesOf (kind x) (data x)), '\n' ∉ s ∧ '\r' ∉ s := by
    intro s hs
    obtain ⟨x, hx, hm⟩ := List.mem_flatMap.mp hs
    have a := hk x hx
    have b := hd x hx
    unfold linesOf at hm
    simp only [List.mem_cons, List.not_mem_nil, or_false] at hm
    rcases hm with rfl | rfl | rfl
    · simpa using a.2
    · simpa using b.2
    · simp
  rw [e] at hp
  have hcr : '\r' ∉ p := by
    intro hc
    have := hp.subset hc
    obtain ⟨s, hs, hm⟩ := List.mem_flatMap.mp this
    have := (hl s hs).2
    simp [this] at hm
  obtain ⟨j1, j2, j3⟩ := Cmd.lines_prefix (fun s => s) (l.flatMap fun x => linesOf (kind x) (data x)) (fun s hs => (hl s hs).1) p hp
  obtain ⟨k, i1, i2, i3⟩ := events_take kind data l (fun x hx => (hk x hx).1) (p.count '\n')
  refine ⟨k, i1, ?_, ?_⟩
  · unfold sseEvents
    rw [stream_lines p [] hcr, ← i2]
    have : linesFrom [] p = _ := j1
    rw [this, List.map_id']
  · intro he
    rw [e] at he
    exact i3 (by rw [j3 he])

theorem fits_init (f : Filter) (n : Nat) : Fits (.obj (field "filter" (encFilter f) ++ field "sendbuf" (.num n))) initTy := by
  refine fits_obj _ _ ?_
  simp only [fits_append]
  exact ⟨fits_field _ _ _ _ _ rfl (fits_filter f), fits_field _ _ _ _ _ rfl (fits_num _)⟩

theorem fits_streamStats (st : StreamStats) : Fits (encStreamStats st) streamStatsTy := by
  refine fits_obj _ _ ?_
  simp only [fits_append]
  exact ⟨⟨fits_field _ _ _ _ _ rfl (fits_num _), fits_field _ _ _ _ _ rfl (fits_num _)⟩, fits_field _ _ _ _ _ rfl (fits_num _)⟩

/-- The times of what is written are from year 1 to year 9999. -/
def Out.Ordinary : Out → Prop
  | .trace x => OrdinaryTrace x
  | _ => True

theorem out_valid {seconds : Duration → List Char} (hs : Seconds seconds) (o : Out) : Valid (o.text seconds) := by
  cases o with
  | init f n => exact text_valid _
  | stats st => exact text_valid _
  | trace x => exact Cmd.trace_valid hs x

theorem eventRead_out {seconds : Duration → List Char} (hs : Seconds seconds) (o : Out) (h : o.Ordinary) :
    eventRead (o.kind, write compact 0 (o.text seconds)) = encOut o := by
  unfold eventRead
  rw [(read_encoded compact_blank _ (out_valid hs o)).1, Option.bind_some]
  cases o with
  | init f n => exact congrArg (SSE.mk "init") (view_text _ _ (fits_init f n))
  | stats st => exact congrArg (SSE.mk "stats") (view_text _ _ (fits_streamStats st))
  | trace x => exact congrArg (SSE.mk "trace") (Cmd.view_trace seconds x h)

theorem text_ne {seconds : Duration → List Char} (o : Out) : write compact 0 (o.text seconds) ≠ [] := by
  have key : ∀ m : List (String × JText), write compact 0 (.obj m) ≠ [] := by
    intro m
    cases m with
    | nil => rw [write]; simp
    | cons p m => obtain ⟨k, v⟩ := p; rw [write]; simp
  cases o with
  | init f n => show write compact 0 (jtext (.obj _)) ≠ []; rw [jtext]; exact key _
  | stats st => show write compact 0 (jtext (.obj _)) ≠ []; rw [jtext]; exact key _
  | trace x => exact key _

/-! ## C127 -/

/-- **C127** Wherever the text of a stream is cut, a reader of server-sent events finds the first of the events that the handler wrote,
in order, each with its type and a value that is the one written; and all of them if it is not cut. -/
theorem C127_events {seconds : Duration → List Char} (hs : Seconds seconds) (l : List Out) (hl : ∀ o ∈ l, o.Ordinary) (p : List Char)
    (hp : p <+: streamText seconds l) :
    ∃ k, k ≤ l.length ∧ (sseEvents p).map eventRead = (l.take k).map encOut ∧ (p = streamText seconds l → k = l.length) := by
  have hc : ∀ o : Out, '\n' ∉ write compact 0 (o.text seconds) ∧ '\r' ∉ write compact 0 (o.text seconds) := by
    intro o
    exact ⟨fun h => absurd (write_clean _ 0 (out_valid hs o) _ h) (by decide), fun h => absurd (write_clean _ 0 (out_valid hs o) _ h) (by decide)⟩
  obtain ⟨k, i1, i2, i3⟩ := sse_prefix Out.kind (fun o => write compact 0 (o.text seconds)) l
    (fun o _ => by cases o <;> simp [Out.kind]) (fun o _ => ⟨text_ne o, hc o⟩) p hp
  refine ⟨k, i1, ?_, i3⟩
  rw [i2, List.map_map]
  exact List.map_congr_left fun o ho => eventRead_out hs o (hl o (List.mem_of_mem_take ho))

/-- **C127** The values: the first event tells the filter and the size of the buffer, statistics have the three counts, and a trace is
read as that trace. -/
theorem C127_values {seconds : Duration → List Char} (hs : Seconds seconds) (o : Out) (h : o.Ordinary) :
    match o with
    | .init f n => unmarshalText initTy (fun v => (decObj v).bind fun fs => (get fs "filter" {} decFilter).bind fun g =>
        (get fs "sendbuf" 0 decInt).map fun m => (g, m)) (write compact 0 (o.text seconds)) = some (wireFilter f, (n : Int))
    | .stats st => unmarshalText streamStatsTy decStreamStats (write compact 0 (o.text seconds)) =
        some ((st.skips : Int), (st.sends : Int), (st.drops : Int))
    | .trace x => readTrace (write compact 0 (o.text seconds)) = some (wireStatic x) := by
  cases o with
  | init f n =>
    refine ((unmarshal_written compact_blank initTy _ _ (fits_init f n)).1).trans ?_
    simp only [decObj, field, Option.bind_some]
    have e1 : get [("filter", encFilter f), ("sendbuf", JSON.num n)] "filter" ({} : Filter) decFilter = decFilter (encFilter f) := rfl
    have e2 : get [("filter", encFilter f), ("sendbuf", JSON.num n)] "sendbuf" (0 : Int) decInt = some (n : Int) := rfl
    show ((get [("filter", encFilter f), ("sendbuf", JSON.num n)] "filter" ({} : Filter) decFilter).bind fun g =>
        (get [("filter", encFilter f), ("sendbuf", JSON.num n)] "sendbuf" (0 : Int) decInt).map fun m => (g, m)) = _
    rw [e1, e2, filter_rt]
    rfl
  | stats st => exact ((unmarshal_written compact_blank streamStatsTy _ _ (fits_streamStats st)).1).trans (streamStats_rt st)
  | trace x => exact (Cmd.C126_trace hs .ndjson x h).1

/-- One connection of a client: the text that has arrived is a beginning of what the handler wrote, in some execution of the server. -/
structure TextConnection (compile : Compile) (f : Filter) (seconds : Duration → List Char) where
  cap : Ch → Nat
  k : HCfg
  filter : k.f = f
  state : HSt
  reach : HReach compile cap k state
  ordinary : ∀ o ∈ state.out, o.Ordinary
  text : List Char
  beginning : text <+: streamText seconds state.out

/-- **C127** End to end, from the text: a stream client that reads what has arrived over any number of connections never fails to
decode; until it is cancelled it hands over all traces in it, in order; and each of them was published at its server and satisfies
the filter. -/
theorem C127_client (compile : Compile) (f : Filter) (hf : f.Fresh compile) {seconds : Duration → List Char} (hs : Seconds seconds)
    {s : CSt} (h : CReach s) (conns : List (TextConnection compile f seconds))
    (hr : s.read = conns.flatMap fun c => (sseEvents c.text).map eventRead) :
    s.pc ≠ .returned .badTrace ∧ s.pc ≠ .returned .badStats ∧
    (s.ctx = false → s.sent ++ pending s.pc = conns.flatMap fun c => traces ((sseEvents c.text).map eventRead)) ∧
    ∀ y ∈ s.sent, ∃ c ∈ conns, ∃ x, y = wireStatic x ∧ f.Sat compile x ∧ x ∈ published c.state.hist := by
  have key : ∀ c : TextConnection compile f seconds, ∃ d : Connection compile f, d.state = c.state ∧
      (sseEvents c.text).map eventRead = d.carried.map encOut := by
    intro c
    obtain ⟨k, -, h2, -⟩ := C127_events hs c.state.out c.ordinary c.text c.beginning
    exact ⟨⟨c.cap, c.k, c.filter, c.state, c.reach, c.state.out.take k, List.take_prefix _ _⟩, rfl, h2⟩
  have hall : ∀ cs : List (TextConnection compile f seconds), ∃ ds : List (Connection compile f),
      (cs.flatMap fun c => (sseEvents c.text).map eventRead) = (ds.flatMap fun d => d.carried.map encOut) ∧
      (cs.flatMap fun c => traces ((sseEvents c.text).map eventRead)) = (ds.flatMap fun d => (tracesOut d.carried).map wireStatic) ∧
      ∀ d ∈ ds, ∃ c ∈ cs, d.state = c.state := by
    intro cs
    induction cs with
    | nil => exact ⟨[], rfl, rfl, by simp⟩
    | cons c cs ih =>
      obtain ⟨ds, i1, i2, i3⟩ := ih
      obtain ⟨d, d1, d2⟩ := key c
      refine ⟨d :: ds, ?_, ?_, ?_⟩
      · rw [List.flatMap_cons, List.flatMap_cons, i1, d2]
      · rw [List.flatMap_cons, List.flatMap_cons, i2, d2]
        congr 1
        exact traces_encOut _
      · intro e he
        rcases List.mem_cons.mp he with rfl | he
        · exact ⟨c, by simp, d1⟩
        · obtain ⟨c', hc', e'⟩ := i3 e he
          exact ⟨c', by simp [hc'], e'⟩
  obtain ⟨ds, e1, e2, e3⟩ := hall conns
  obtain ⟨r1, r2, r3, r4⟩ := C81_end_to_end compile f hf h ds (by rw [hr, e1])
  refine ⟨r1, r2, fun hc => by rw [e2]; exact r3 hc, ?_⟩
  intro y hy
  obtain ⟨d, hd, x, hx, hsat, hp⟩ := r4 y hy
  obtain ⟨c, hc, e⟩ := e3 d hd
  exact ⟨c, hc, x, hx, hsat, by rw [← e]; exact hp⟩

/-! ## Examples -/

/-- The text of a stream. -/
example : String.ofList (streamText (fun _ => ['1']) [.init { category := "a\nb" } 100, .stats { skips := 1, sends := 2, drops := 0 }]) =
    "event: init\ndata: {\"filter\":{\"category\":\"a\\nb\"},\"sendbuf\":100}\n\nevent: stats\ndata: {\"skips\":1,\"sends\":2,\"drops\":0}\n\n" := by
  decide +kernel

/-- Cut in the middle of the second event. -/
example : ∃ p, p <+: streamText (fun _ => ['1']) [.init {} 100, .trace Cmd.printedTrace] ∧ (sseEvents p).length = 1 :=
  ⟨(streamText (fun _ => ['1']) [.init {} 100, .trace Cmd.printedTrace]).take 100, List.take_prefix _ _, by decide +kernel⟩

/-- A reader of events of other senders: comments, several lines of data, other ends of lines, no type. -/
example : sseEvents ": hi\r\ndata: a\rdata:b\n\nevent: x\nid: 3\n\ndata\n\ndata: cut".toList =
    [("message".toList, "a\nb".toList), ("message".toList, [])] := by
  decide +kernel

example : ∀ o ∈ [Out.init {} 100, .trace Cmd.printedTrace], o.Ordinary := by
  intro o ho
  rcases List.mem_cons.mp ho with rfl | ho
  · trivial
  · rw [List.mem_singleton] at ho
    subst ho
    exact Cmd.printedTrace_ordinary

end Trc.Web
