import Verif.Cmd.Output
import Verif.Props.JSONText
import Verif.Props.Pipeline
import Verif.Props.CmdSearch

/-!
# C126: what `trc` prints can be read
-/

set_option linter.unusedVariables false

namespace Trc.Cmd

open Trc.Web
open Trc.Broker (published)

/-! ## Lines -/

/-- The lines of a text that have an end, given the beginning of the first one in reverse. -/
def linesFrom (acc : List Char) : List Char → List (List Char)
  | [] => []
  | c :: r => if c = '\n' then acc.reverse :: linesFrom [] r else linesFrom (c :: acc) r

/-- The lines of a text that have an end. -/
def completeLines (s : List Char) : List (List Char) := linesFrom [] s

theorem lines_none (l acc : List Char) (h : '\n' ∉ l) : linesFrom acc l = [] := by
  induction l generalizing acc with
  | nil => rfl
  | cons c l ih =>
    rw [linesFrom, if_neg (by rintro rfl; exact h (by simp))]
    exact ih _ fun hc => h (by simp [hc])

theorem lines_one (l acc r : List Char) (h : '\n' ∉ l) : linesFrom acc (l ++ '\n' :: r) = (acc.reverse ++ l) :: linesFrom [] r := by
  induction l generalizing acc with
  | nil => rw [List.nil_append, linesFrom, if_pos rfl, List.append_nil]
  | cons c l ih =>
    rw [List.cons_append, linesFrom, if_neg (by rintro rfl; exact h (by simp)), ih _ fun hc => h (by simp [hc])]
    simp

/-- The lines of what was written up to some point. -/
theorem lines_prefix {α : Type} (body : α → List Char) (l : List α) (hb : ∀ x ∈ l, '\n' ∉ body x) (p : List Char)
    (hp : p <+: l.flatMap fun x => body x ++ ['\n']) :
    completeLines p = (l.take (p.count '\n')).map body ∧ p.count '\n' ≤ l.length ∧
      (p = l.flatMap (fun x => body x ++ ['\n']) → p.count '\n' = l.length) := by
  induction l generalizing p with
  | nil =>
    rw [List.flatMap_nil, List.prefix_nil] at hp
    subst hp
    exact ⟨rfl, Nat.le_refl 0, fun _ => rfl⟩
  | cons x l ih =>
    have hx := hb x (by simp)
    rw [List.flatMap_cons, List.append_assoc] at hp
    have e : body x ++ (['\n'] ++ l.flatMap fun x => body x ++ ['\n']) = (body x ++ ['\n']) ++ l.flatMap fun x => body x ++ ['\n'] := by simp
    have cnt0 : (body x).count '\n' = 0 := List.count_eq_zero.mpr hx
    by_cases hl : p.length ≤ (body x).length
    · have hpb : p <+: body x := List.prefix_of_prefix_length_le hp (List.prefix_append _ _) hl
      have hn : '\n' ∉ p := fun h => hx (hpb.subset h)
      have hc : p.count '\n' = 0 := List.count_eq_zero.mpr hn
      rw [hc]
      refine ⟨lines_none p [] hn, by omega, ?_⟩
      intro he
      exfalso
      have := congrArg List.length he
      rw [List.flatMap_cons, List.length_append, List.length_append, List.length_singleton] at this
      omega
    · have hq : (body x ++ ['\n']) <+: p := by
        refine List.prefix_of_prefix_length_le (l₃ := body x ++ (['\n'] ++ l.flatMap fun x => body x ++ ['\n'])) ?_ hp ?_
        · rw [e]; exact List.prefix_append _ _
        · rw [List.length_append, List.length_singleton]; omega
      obtain ⟨q, rfl⟩ := hq
      rw [e, List.prefix_append_right_inj] at hp
      obtain ⟨i1, i2, i3⟩ := ih (fun y hy => hb y (by simp [hy])) q hp
      have hc : ((body x ++ ['\n']) ++ q).count '\n' = q.count '\n' + 1 := by
        rw [List.count_append, List.count_append, cnt0]
        simp
        omega
      rw [hc, List.take_succ_cons, List.map_cons, List.length_cons]
      refine ⟨?_, by omega, ?_⟩
      · unfold completeLines at i1 ⊢
        rw [List.append_assoc, List.singleton_append, lines_one _ _ _ hx, i1]
        rfl
      · intro he
        rw [List.flatMap_cons] at he
        rw [i3 (List.append_cancel_left he)]

/-! ## The text of a trace -/

/-- The seconds are a number. -/
def Seconds (seconds : Duration → List Char) : Prop := ∀ d, isNumber (seconds d) = true

theorem members_append (a b : List (String × JText)) : ValidMembers (a ++ b) ↔ ValidMembers a ∧ ValidMembers b := by
  induction a with
  | nil => rw [List.nil_append, ValidMembers]; simp
  | cons p a ih =>
    obtain ⟨k, v⟩ := p
    rw [List.cons_append, ValidMembers, ValidMembers, ih, and_assoc]

theorem trace_valid {seconds : Duration → List Char} (hs : Seconds seconds) (st : Static) : Valid (traceText seconds st) := by
  rw [traceText, Valid, members_append, members_append]
  refine ⟨⟨members_valid _, ?_⟩, members_valid _⟩
  rw [ValidMembers, Valid]
  refine ⟨trivial, ?_⟩
  split
  · rw [ValidMembers]; trivial
  · rw [ValidMembers, ValidMembers, Valid]; exact ⟨hs _, trivial⟩

theorem viewMembers_append (a b : List (String × JText)) (fs : String → Option Ty) :
    viewMembers (a ++ b) fs = (viewMembers a fs).bind fun x => (viewMembers b fs).map fun y => x ++ y := by
  induction a with
  | nil =>
    rw [List.nil_append, viewMembers, Option.bind_some]
    cases viewMembers b fs <;> rfl
  | cons p a ih =>
    obtain ⟨k, v⟩ := p
    rw [List.cons_append, viewMembers, viewMembers]
    cases hk : fs k with
    | none => exact ih
    | some t =>
      simp only
      rw [ih]
      cases view v t with
      | none => rfl
      | some v =>
        cases viewMembers a fs with
        | none => rfl
        | some x => cases viewMembers b fs <;> rfl

theorem textMembers_append (a b : Fields) : textMembers (a ++ b) = textMembers a ++ textMembers b := by
  induction a with
  | nil => rfl
  | cons p a ih =>
    obtain ⟨k, v⟩ := p
    rw [List.cons_append, textMembers, textMembers, ih, List.cons_append]

/-- The fields that repeat the duration are not needed. -/
theorem view_trace (seconds : Duration → List Char) (st : Static) (h : OrdinaryTrace st) :
    view (traceText seconds st) traceTy = some (encStatic st) := by
  have h0 := view_text (encStatic st) traceTy (fits_static st h)
  unfold encStatic at h0
  rw [jtext, traceTy, struct, view] at h0
  rw [traceText, traceTy, struct, view]
  rw [show ∀ a b c d e f g i : Fields, a ++ b ++ c ++ d ++ e ++ f ++ g ++ i = (a ++ b ++ c ++ d ++ e) ++ (f ++ g ++ i) from
    fun a b c d e f g i => by simp only [List.append_assoc], textMembers_append, viewMembers_append] at h0
  rw [List.append_assoc, viewMembers_append, viewMembers_append]
  rw [show viewMembers (("duration_str", JText.str (String.ofList (durationString st.duration))) ::
      (if st.duration = 0 then [] else [("duration_sec", JText.num (seconds st.duration))])) (fun k => Option.map (fun x => x.2)
        (List.find? (fun x => decide (x.1 = k)) [("source", Ty.str), ("id", Ty.str), ("category", Ty.str), ("started", Ty.time), ("duration", Ty.num),
          ("finished", Ty.bool), ("errored", Ty.bool), ("events", Ty.arr eventTy)])) = some [] from by
    rw [viewMembers, show (Option.map (fun x => x.2) (List.find? (fun x => decide (x.1 = "duration_str")) [("source", Ty.str), ("id", Ty.str),
      ("category", Ty.str), ("started", Ty.time), ("duration", Ty.num), ("finished", Ty.bool), ("errored", Ty.bool), ("events", Ty.arr eventTy)])) = none from rfl]
    simp only
    split
    · rw [viewMembers]
    · rw [viewMembers, show (Option.map (fun x => x.2) (List.find? (fun x => decide (x.1 = "duration_sec")) [("source", Ty.str), ("id", Ty.str),
      ("category", Ty.str), ("started", Ty.time), ("duration", Ty.num), ("finished", Ty.bool), ("errored", Ty.bool), ("events", Ty.arr eventTy)])) = none from rfl]
      simp only
      rw [viewMembers]]
  simp only [Option.bind_some, List.nil_append, Option.map_id']
  exact h0

/-- Read a trace from its text. -/
def readTrace (s : List Char) : Option Static := unmarshalText traceTy decStatic s

theorem layout_blank (o : Output) : o.layout.Blank := by cases o; exacts [compact_blank, pretty_blank]

/-! ## C126 -/

/-- **C126** What is printed for a trace is read as that trace, with its times as they are on the wire. -/
theorem C126_trace {seconds : Duration → List Char} (hs : Seconds seconds) (o : Output) (st : Static) (h : OrdinaryTrace st) :
    readTrace (write o.layout 0 (traceText seconds st)) = some (wireStatic st) ∧
    readTrace (encodeLine o.layout (traceText seconds st)) = some (wireStatic st) := by
  obtain ⟨h1, h2⟩ := read_encoded (layout_blank o) _ (trace_valid hs st)
  constructor
  · unfold readTrace unmarshalText
    rw [h1]; simp only [bind, Option.bind_some]; rw [view_trace seconds st h]; exact static_rt st
  · unfold readTrace unmarshalText
    rw [h2]; simp only [bind, Option.bind_some]; rw [view_trace seconds st h]; exact static_rt st

/-- **C126** `trc stream -o ndjson`: there is a line for each trace; whenever the program is stopped, even within a line, those lines
that have an end are the first of the traces that it printed, in order. -/
theorem C126_lines {seconds : Duration → List Char} (hs : Seconds seconds) (l : List Static) (hl : ∀ st ∈ l, OrdinaryTrace st)
    (p : List Char) (hp : p <+: streamOutput seconds .ndjson l) :
    ∃ k, k ≤ l.length ∧ (completeLines p).map readTrace = (l.take k).map (fun st => some (wireStatic st)) ∧
      (p = streamOutput seconds .ndjson l → k = l.length) := by
  have hn : ∀ st ∈ l, '\n' ∉ write compact 0 (traceText seconds st) := by
    intro st _ hc
    exact absurd (write_clean _ 0 (trace_valid hs st) _ hc) (by decide)
  obtain ⟨h1, h2, h3⟩ := lines_prefix (fun st => write compact 0 (traceText seconds st)) l hn p hp
  refine ⟨p.count '\n', h2, ?_, h3⟩
  rw [h1, List.map_map]
  refine List.map_congr_left fun st hst => ?_
  exact (C126_trace hs .ndjson st (hl st (List.mem_of_mem_take hst))).1

/-- **C126** In both formats the output is a sequence of JSON values, which are the traces, in order. -/
theorem C126_values {seconds : Duration → List Char} (hs : Seconds seconds) (o : Output) (l : List Static) (hl : ∀ st ∈ l, OrdinaryTrace st) :
    ∃ js, readValues (streamOutput seconds o l) = some js ∧
      js.map (fun j => (view j traceTy).bind decStatic) = l.map fun st => some (wireStatic st) := by
  have h := read_sequence (layout_blank o) (l.map (traceText seconds)) (by
    intro v hv
    obtain ⟨st, -, rfl⟩ := List.mem_map.mp hv
    exact trace_valid hs st)
  rw [List.flatMap_map] at h
  refine ⟨_, h, ?_⟩
  rw [List.map_map]
  refine List.map_congr_left fun st hst => ?_
  show (view (traceText seconds st) traceTy).bind decStatic = _
  rw [view_trace seconds st (hl st hst), Option.bind_some, static_rt]

/-- **C126** End to end: with C94, in whatever state `trc stream` is, and however much of its output has arrived: each line that has an
end is a trace that was published at one of the servers and satisfies the filter. -/
theorem C126_stream {interval : Int} {n cap : Nat} (compile : Compile) (f : Filter) (hf : f.Fresh compile) {s : PSt} (h : PReach interval n cap s)
    (conns : Nat → CSt → List (Connection compile f))
    (hr : ∀ i, i < n → ∀ c ∈ (s.uris i).streams, c.read = (conns i c).flatMap fun c => c.carried.map encOut)
    {seconds : Duration → List Char} (hs : Seconds seconds) (hl : ∀ x ∈ s.written, OrdinaryTrace x.2) (p : List Char)
    (hp : p <+: streamOutput seconds .ndjson (s.written.map (·.2))) :
    ∀ line ∈ completeLines p, ∃ i c k x, c ∈ (s.uris i).streams ∧ k ∈ conns i c ∧ readTrace line = some (wireStatic x) ∧ f.Sat compile x ∧
      x ∈ published k.state.hist := by
  intro line hline
  obtain ⟨k, -, hk, -⟩ := C126_lines hs (s.written.map (·.2)) (by
    intro st hst
    obtain ⟨x, hx, rfl⟩ := List.mem_map.mp hst
    exact hl x hx) p hp
  have hm : readTrace line ∈ (completeLines p).map readTrace := List.mem_map.mpr ⟨line, hline, rfl⟩
  rw [hk] at hm
  obtain ⟨y, hy, e⟩ := List.mem_map.mp hm
  obtain ⟨⟨i, y'⟩, hx, rfl⟩ := List.mem_map.mp (List.mem_of_mem_take hy)
  obtain ⟨c, hc, k, hk, x, rfl, hsat, hpub⟩ := C94_end_to_end compile f hf h conns hr i y' hx
  refine ⟨i, c, k, x, hc, hk, ?_, hsat, hpub⟩
  rw [← e]
  simp [wireStatic, wireEvent, Time.onWire, Function.comp_def]

theorem reply_text (r : Reply) : replyText r = jtext (.obj (field "request" (encPtr encRequest r.request) r.request.isNone ++
    field "sources" (encArr .str r.sources) ++
    field "total_count" (.num r.totalCount) ++ field "match_count" (.num r.matchCount) ++
    field "traces" (if r.traces.isEmpty then .null else encArr encStatic r.traces) ++
    field "stats" (encPtr encStats r.stats) r.stats.isNone ++
    field "problems" (encArr .str r.problems) r.problems.isEmpty ++ field "duration" (.num r.duration))) := by
  rw [jtext]; rfl

/-- **C126** `trc search`: the output is read as the response, whether or not it has traces. -/
theorem C126_search (o : Output) (r : Reply) (h : OrdinaryReply r) : unmarshalText replyTy decReply (searchOutput o r) = some (wireReply r) := by
  unfold searchOutput
  rw [reply_text, (unmarshal_written (layout_blank o) replyTy decReply _ ?_).2]
  · by_cases ht : r.traces.isEmpty = true
    · rw [if_pos ht]
      unfold decReply
      rd
      rw [show ∀ dec : JSON → Option (List Static), getv JSON.null [] dec = some [] from fun _ => rfl]
      simp only [omit_ptr request_rt (by simp [encRequest]), omit_ptr stats_rt (by simp [encStats]), Option.bind_some]
      rw [List.isEmpty_iff] at ht
      simp only [wireReply, ht]
      rfl
    · rw [if_neg ht]
      exact reply_rt r
  · refine fits_obj _ _ ?_
    simp only [fits_append]
    refine ⟨⟨⟨⟨⟨⟨⟨fits_field _ _ _ _ _ rfl (fits_ptr _ _ _ fun r _ => fits_request r), fits_field _ _ _ _ _ rfl (fits_arr _ _ _ fun s _ => fits_str s)⟩,
      fits_field _ _ _ _ _ rfl (fits_num _)⟩, fits_field _ _ _ _ _ rfl (fits_num _)⟩,
      fits_field _ _ _ _ (.arr traceTy) rfl ?_⟩,
      fits_field _ _ _ _ _ rfl (fits_ptr _ _ _ fun ss hss => fits_stats ss (h.2 ss hss))⟩,
      fits_field _ _ _ _ _ rfl (fits_arr _ _ _ fun s _ => fits_str s)⟩, fits_field _ _ _ _ _ rfl (fits_num _)⟩
    split
    · rw [Trc.Web.Fits]; trivial
    · exact fits_arr _ _ _ fun st hst => fits_static st (h.1 st hst)

/-- The member of an object. -/
def member (name : String) : JText → Option JText
  | .obj l => (l.find? (·.1 = name)).map (·.2)
  | _ => none

theorem member_traces (r : Reply) : member "traces" (replyText r) = some (jtext (if r.traces.isEmpty then .null else encArr encStatic r.traces)) := by
  unfold replyText member
  simp only [textMembers_append, List.find?_append]
  cases r.request <;> rfl

/-- **C126**, the part that holds: if something was found, `traces` is an array with an element for each trace. -/
theorem C126_array_partial (o : Output) (r : Reply) (h : r.traces ≠ []) :
    ∃ j l, readJSON (searchOutput o r) = some j ∧ member "traces" j = some (.arr l) ∧ l.length = r.traces.length := by
  have hv : Valid (replyText r) := by rw [reply_text]; exact text_valid _
  refine ⟨replyText r, textElems (r.traces.map encStatic), (read_encoded (layout_blank o) _ hv).2, ?_, ?_⟩
  · rw [member_traces, if_neg (by simpa using h), encArr, jtext]
  · have : ∀ l : List JSON, (textElems l).length = l.length := by
      intro l
      induction l with
      | nil => rfl
      | cons v l ih => rw [textElems, List.length_cons, ih, List.length_cons]
    rw [this, List.length_map]

/-- **C126** `traces` is an array just if something was found. -/
theorem C126_exact (o : Output) (r : Reply) : (∃ j l, readJSON (searchOutput o r) = some j ∧ member "traces" j = some (.arr l)) ↔ r.traces ≠ [] := by
  constructor
  · rintro ⟨j, l, h1, h2⟩ he
    have hv : Valid (replyText r) := by rw [reply_text]; exact text_valid _
    unfold searchOutput at h1
    rw [(read_encoded (layout_blank o) _ hv).2] at h1
    obtain rfl := Option.some.inj h1
    rw [member_traces, he, List.isEmpty_nil, if_pos rfl, jtext] at h2
    cases h2
  · intro h
    obtain ⟨j, l, h1, h2, -⟩ := C126_array_partial o r h
    exact ⟨j, l, h1, h2⟩

/-- **C126** is false for a search that finds nothing: `traces` is `null` and not an array, though `sources` is one. -/
theorem C126_null_violated (o : Output) (r : Reply) (h : r.traces = []) :
    ∃ j l, readJSON (searchOutput o r) = some j ∧ member "traces" j = some .null ∧ member "sources" j = some (.arr l) := by
  have hv : Valid (replyText r) := by rw [reply_text]; exact text_valid _
  refine ⟨replyText r, textElems (r.sources.map .str), (read_encoded (layout_blank o) _ hv).2, ?_, ?_⟩
  · rw [member_traces, h, List.isEmpty_nil, if_pos rfl, jtext]
  · unfold replyText member
    simp only [textMembers_append, List.find?_append]
    cases r.request <;> rfl

/-- **C126** On the wire too: the texts of a request and of the response of a trace server are read as the values that were sent, with
times without their monotonic readings and filters without the compiled query. -/
theorem C126_wire (d : SearchData) (h : OrdinaryReply d.response) :
    unmarshalText dataTy decData (encodeLine compact (jtext (encData d))) =
      some { request := wireRequest d.request, response := wireReply d.response, problems := [] } ∧
    unmarshalText requestTy decRequest (write compact 0 (jtext (encRequest d.request))) = some (wireRequest d.request) :=
  ⟨(unmarshal_written compact_blank dataTy decData _ (fits_data d h)).2.trans (data_rt d),
    (unmarshal_written compact_blank requestTy decRequest _ (fits_request _)).1.trans (request_rt _)⟩

/-! ## Examples -/

/-- A trace with a text that has quotation marks, a line break and other characters. -/
def printedTrace : Static :=
  { source := "a", id := "01H", category := "<c>", started := ⟨63835596800123456000, none⟩, duration := -1500, finished := true, errored := true
    events := [{ when_ := ⟨63835596800123456000, none⟩, what := "say \"x\"\nline two — ok", stack := [{ function := "f", fileLine := "f.go:1" }], isError := true }] }

theorem printedTrace_ordinary : OrdinaryTrace printedTrace := by
  refine ⟨by unfold Time.Ordinary; decide, ?_⟩
  intro ev hev
  simp only [printedTrace, List.mem_singleton] at hev
  subst hev
  unfold Time.Ordinary; decide

theorem seconds_zero : Seconds fun _ => ['0', '.', '5', 'e', '-', '6'] := fun _ => (by decide : isNumber ['0', '.', '5', 'e', '-', '6'] = true)

example : readTrace (encodeLine pretty (traceText (fun _ => ['0', '.', '5', 'e', '-', '6']) printedTrace)) = some (wireStatic printedTrace) :=
  (C126_trace seconds_zero .prettyjson printedTrace printedTrace_ordinary).2

example : String.ofList (write compact 0 (traceText (fun _ => ['0', '.', '5', 'e', '-', '6']) printedTrace)) =
    "{\"source\":\"a\",\"id\":\"01H\",\"category\":\"\\u003cc\\u003e\",\"started\":\"2023-11-14T22:13:20.123456Z\",\"duration\":-1500,\"duration_str\":\"-1.5µs\",\"duration_sec\":0.5e-6,\"finished\":true,\"errored\":true,\"events\":[{\"when\":\"2023-11-14T22:13:20.123456Z\",\"what\":\"say \\\"x\\\"\\nline two — ok\",\"stack\":[{\"function\":\"f\",\"fileline\":\"f.go:1\"}],\"is_error\":true}]}" := by
  decide +kernel

/-- Two traces, and the output cut in the second line. -/
example : ∃ p, p <+: streamOutput (fun _ => ['0', '.', '5', 'e', '-', '6']) .ndjson [printedTrace, printedTrace] ∧ completeLines p ≠ [] :=
  ⟨_, List.prefix_append _ _, by decide +kernel⟩

/-- A search that finds nothing. -/
example : String.ofList (searchOutput .ndjson { sources := [] }) = "{\"sources\":[],\"total_count\":0,\"match_count\":0,\"traces\":null,\"duration\":0}\n" := by
  decide +kernel

/-- No server is there, and nothing was found. -/
example (compile : Compile) (srt : List Static → List Static) (hs : srt [] = []) :
    ∃ p, searchExec compile srt {} [] = some p ∧ p.traces = [] := by
  refine ⟨_, rfl, ?_⟩
  show cutTo _ (srt []) = []
  rw [hs]; rfl

end Trc.Cmd
