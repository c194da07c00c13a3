import Verif.Cmd.StreamTracing
import Verif.Props.CmdTracing
import Verif.Props.Using

/-!
# C153: with `--log trace`, `trc stream` tells what each server sends about its stream
-/

set_option linter.unusedSectionVars false

namespace Trc.Cmd

open Trc.Wrap Trc.Web Trc.Web.Using Core Core.Spec Fmt

/-! ## Specification -/

/-- What is said about an event from a server. -/
def heard (quote : String → String) (uri : String) (ev : Ev) : List String :=
  match ev.type with
  | "init" => ["<" ++ uri ++ "> init: " ++ ev.raw]
  | "trace" => []
  | "stats" =>
    match unmarshal (0, 0, 0) decStreamStats ev.json with
    | some (skips, sends, drops) => ["<" ++ uri ++ "> skips=" ++ toString skips ++ " sends=" ++ toString sends ++ " drops=" ++ toString drops]
    | none => []
  | other => ["<" ++ uri ++ "> unknown event type " ++ quote other]

/-- What is said about a stream. -/
def streamSaid (quote : String → String) (uri : String) (c : Call) : List String :=
  c.evs.flatMap (heard quote uri) ++ c.err.toList.map fun e => "ERROR: <" ++ uri ++ "> error: " ++ e

/-- What is said about a server. -/
def serverSaid (quote : String → String) (s : String × List Call) : List String := s.2.flatMap (streamSaid quote s.1)

/-- A stream has ended with an error. -/
def anyFailed (servers : List (String × List Call)) : Bool := servers.any fun s => s.2.any fun c => c.err.isSome

/-- How the values are formatted; `quote` is `%q`. -/
structure StreamValues.Rendered (W : Type) {A : Type} [Render W A] [Arg A] (quote : String → String) (v : StreamValues A) : Prop
    extends v.toValues.Rendered W where
  quoted : ∀ (m : W) s, Render.arg m [] 'q' (Arg.str s : A) = (quote s).toList
  stats : ∀ (m : W) skips sends drops, Render.arg m [] 's' (v.stats (skips, sends, drops)) =
    ("skips=" ++ toString skips ++ " sends=" ++ toString sends ++ " drops=" ++ toString drops).toList

/-- A line that is logged. -/
def logLine : SEff → Option (Bool × String)
  | .log isError text => some (isError, text)
  | _ => none

/-! ## Lemmas -/

variable {W A : Type} [Render W A] [Arg A] [Humanize] {v : StreamValues A} {quote : String → String}

theorem text_init (hv : v.Rendered W quote) (m : W) (x : String) : sprintf m "init: %s" [(Arg.str x : A)] = "init: " ++ x := by
  have e : "init: %s".toList = ['i', 'n', 'i', 't', ':', ' ', '%', 's'] := rfl
  apply String.toList_inj.mp
  unfold sprintf
  rw [e]
  simp [printf, Stage.next, hv.str, extraReport]

theorem text_unknown (hv : v.Rendered W quote) (m : W) (x : String) :
    sprintf m "unknown event type %q" [(Arg.str x : A)] = "unknown event type " ++ quote x := by
  have e : "unknown event type %q" = "unknown event type " ++ "%q" := rfl
  have h := sprintf_append m "unknown event type " "%q" ([] : List A) [Arg.str x] (takes_plain _ (by decide))
  rw [List.nil_append] at h
  rw [e, h, sprintf_plain m _ (by decide)]
  congr 1
  have e : "%q".toList = ['%', 'q'] := rfl
  apply String.toList_inj.mp
  unfold sprintf
  rw [e]
  simp [printf, Stage.next, hv.quoted, extraReport]

theorem text_stats (hv : v.Rendered W quote) (m : W) (skips sends drops : Int) :
    sprintf m "%s" [v.stats (skips, sends, drops)] = "skips=" ++ toString skips ++ " sends=" ++ toString sends ++ " drops=" ++ toString drops := by
  have hs := hv.stats m skips sends drops
  generalize ("skips=" ++ toString skips ++ " sends=" ++ toString sends ++ " drops=" ++ toString drops) = text at hs ⊢
  generalize v.stats (skips, sends, drops) = value at hs ⊢
  have e : "%s".toList = ['%', 's'] := rfl
  apply String.toList_inj.mp
  unfold sprintf
  rw [e]
  simp [printf, Stage.next, hs, extraReport]

/-- What is printed for a line. -/
def printed (m : W) (x : Logged A) : String := (if (told m x).1 then "ERROR: " else "") ++ (told m x).2

theorem printed_own (m : W) (uri : String) (ctx : Ctx A) (stack : List StdFrame) (l : LogKind × String × List A) :
    printed m (ownLine [uri] ctx stack l) = (if isErr l.1 then "ERROR: " else "") ++ ("<" ++ uri ++ "> " ++ sprintf m l.2.1 l.2.2) := by
  unfold printed
  rw [told_own]
  simp [idText]

theorem event_printed (hv : v.Rendered W quote) (m : W) (uri : String) (ctx : Ctx A) (ev : Ev) :
    ((eventLines v ev).map (ownLine [uri] ctx [])).map (printed m) = heard quote uri ev := by
  unfold eventLines heard
  split
  · rename_i h
    simp only [h, List.map_cons, List.map_nil, printed_own, text_init hv]
    simp [isErr, String.append_assoc]
    rw [show ("> init: " : String) = "> " ++ "init: " from rfl]
    simp only [String.append_assoc]
  · rename_i h1
    split
    · rename_i h
      simp only [h, List.map_nil]
    · rename_i h2
      split
      · rename_i h
        simp only [h]
        cases unmarshal (0, 0, 0) decStreamStats ev.json with
        | none => rfl
        | some st =>
          obtain ⟨a, b, c⟩ := st
          simp only [List.map_cons, List.map_nil, printed_own, text_stats hv]
          simp [isErr, String.append_assoc]
          rw [show ("> skips=" : String) = "> " ++ "skips=" from rfl]
          simp only [String.append_assoc]
      · rename_i h3
        split
        · rename_i h; exact absurd h h1
        · rename_i h; exact absurd h h2
        · rename_i h; exact absurd h h3
        · simp only [List.map_cons, List.map_nil, printed_own, text_unknown hv]
          simp [isErr, String.append_assoc]
          rw [show ("> unknown event type " : String) = "> " ++ "unknown event type " from rfl]
          simp only [String.append_assoc]

theorem end_printed (hv : v.Rendered W quote) (m : W) (uri : String) (ctx : Ctx A) (err : Option String) :
    ((endLines v err).map (ownLine [uri] ctx [])).map (printed m) = err.toList.map fun e => "ERROR: <" ++ uri ++ "> error: " ++ e := by
  cases err with
  | none => rfl
  | some e =>
    simp only [endLines, List.map_cons, List.map_nil, printed_own, text_failed hv.toRendered, Option.toList_some]
    simp [isErr, String.append_assoc]
    rw [show ("ERROR: <" : String) = "ERROR: " ++ "<" from rfl, show ("> error: " : String) = "> " ++ "error: " from rfl]
    simp only [String.append_assoc]

theorem server_printed (hv : v.Rendered W quote) (m : W) (uri : String) (ctx : Ctx A) (calls : List Call) :
    ((calls.flatMap (Call.lines v)).map (ownLine [uri] ctx [])).map (printed m) = serverSaid quote (uri, calls) := by
  unfold serverSaid
  simp only
  induction calls with
  | nil => rfl
  | cons c calls ih =>
    rw [List.flatMap_cons, List.map_append, List.map_append, ih, List.flatMap_cons]
    congr 1
    unfold Call.lines streamSaid
    rw [List.map_append, List.map_append, end_printed hv]
    congr 1
    induction c.evs with
    | nil => rfl
    | cons ev evs ih => rw [List.flatMap_cons, List.map_append, List.map_append, ih, List.flatMap_cons, event_printed hv]

/-- A line does what is expected of it. -/
theorem line_ok (hv : v.Rendered W quote) (c : Call) (l : LogKind × String × List A) (hl : l ∈ c.lines v) :
    Takes l.2.1 l.2.2.length ∧ l.2.1.toList.getLast?.any (· ≠ '\n') = true ∧ (∀ m m' : W, sprintf m l.2.1 l.2.2 = sprintf m' l.2.1 l.2.2) := by
  unfold Call.lines at hl
  rcases List.mem_append.mp hl with h | h
  · obtain ⟨ev, -, h⟩ := List.mem_flatMap.mp h
    unfold eventLines at h
    split at h
    · rw [List.mem_singleton] at h; subst h
      exact ⟨by show Takes "init: %s" 1; decide, by show "init: %s".toList.getLast?.any (· ≠ '\n') = true; decide, fun m m' => by rw [text_init hv, text_init hv]⟩
    · split at h
      · cases h
      · split at h
        · split at h
          · rename_i st _
            obtain ⟨a, b, c⟩ := st
            rw [List.mem_singleton] at h; subst h
            exact ⟨by show Takes "%s" 1; decide, by show "%s".toList.getLast?.any (· ≠ '\n') = true; decide, fun m m' => by rw [text_stats hv, text_stats hv]⟩
          · cases h
        · rw [List.mem_singleton] at h; subst h
          exact ⟨by show Takes "unknown event type %q" 1; decide, by show "unknown event type %q".toList.getLast?.any (· ≠ '\n') = true; decide, fun m m' => by rw [text_unknown hv, text_unknown hv]⟩
  · cases he : c.err with
    | none => rw [he] at h; cases h
    | some e =>
      rw [he] at h
      simp only [endLines, List.mem_singleton] at h; subst h
      exact ⟨by show Takes "error: %v" 1; decide, by show "error: %v".toList.getLast?.any (· ≠ '\n') = true; decide, fun m m' => by rw [text_failed hv.toRendered, text_failed hv.toRendered]⟩

theorem err_lines (c : Call) : ((c.lines v).any fun l => isErr l.1) = c.err.isSome := by
  unfold Call.lines
  rw [List.any_append]
  have h1 : ((c.evs.flatMap (eventLines v)).any fun l => isErr l.1) = false := by
    rw [List.any_eq_false]
    intro l hl
    obtain ⟨ev, -, h⟩ := List.mem_flatMap.mp hl
    unfold eventLines at h
    split at h
    · rw [List.mem_singleton] at h; subst h; exact Bool.false_ne_true
    · split at h
      · cases h
      · split at h
        · split at h
          · rw [List.mem_singleton] at h; subst h; exact Bool.false_ne_true
          · cases h
        · rw [List.mem_singleton] at h; subst h; exact Bool.false_ne_true
  rw [h1]
  cases c.err <;> rfl

/-- **C153** With `--log trace`, `trc stream` prints a record for each of these, marked and with the ID of its trace: that it has started; for each server, with
its URI and in order, the data of each init event, the numbers of all statistics and the type of each unknown event that a stream from it has sent, and each
time a stream from it has ended with an error that error, marked as one; and that it is done, as errored if there was such an error, and after which time.
There is nothing else, and no text is lost or mixed with another, though the servers are listened to concurrently. -/
theorem C153_told [Nonempty W] (hv : v.Rendered W quote) (ctx : Ctx A) (addr : Nat) (id : String) (dst : Nat) (servers : List (String × List Call))
    (hid : '%' ∉ id.toList) (ex : List (AEnv W × Act A)) (h : StreamTraced v ctx addr id dst servers ex)
    (w w' : World A) (hrun : w.run ex = some w') (hw : w.written dst = []) (level : String) (hl : level = "trace" ∨ level = "t") :
    ∃ t, ∃ middle : List (Nat × String), w'.traces addr = some t ∧ t.finished = true ∧ t.errored = anyFailed servers ∧
      (∀ x ∈ middle, x.1 < servers.length) ∧
      (∀ i (hi : i < servers.length), (middle.filter fun x => decide (x.1 = i)).map Prod.snd = serverSaid quote servers[i]) ∧
      traceOutput level (w'.written dst) = some (String.join
        ((["started, source 'trc', category 'stream'"] ++ middle.map Prod.snd ++
          ["done, " ++ (if anyFailed servers then "errored" else "success") ++ ", " ++ Humanize.duration t.duration]).map fun x =>
            "[TRACE] " ++ (id ++ " " ++ x) ++ "\n")) := by
  obtain ⟨first, mid, last, lines, rfl, hfirst, hlt, hlines, hwr, hca, hmk, hlast⟩ := h.run
  obtain ⟨m⟩ := (inferInstance : Nonempty W)
  -- each line is one of a server
  have hof : ∀ x ∈ lines, ∃ uri calls, servers[x.1]? = some (uri, calls) ∧ ∃ c ∈ calls, ∃ l ∈ c.lines v,
      x.2 = ownLine [uri] (uriCtx (newTrace ctx addr id "stream" dst).1 uri) x.2.stack l := by
    intro x hx
    have hi := hlt x hx
    refine ⟨servers[x.1].1, servers[x.1].2, List.getElem?_eq_getElem hi, ?_⟩
    have := hlines x.1 servers[x.1].1 servers[x.1].2 (List.getElem?_eq_getElem hi)
    have hm : ({ x.2 with stack := [] } : Logged A) ∈ ((lines.filter fun y => decide (y.1 = x.1)).map fun y => { y.2 with stack := [] }) :=
      List.mem_map.mpr ⟨x, List.mem_filter.mpr ⟨hx, by simp⟩, rfl⟩
    rw [this] at hm
    obtain ⟨l, hl, e⟩ := List.mem_map.mp hm
    obtain ⟨c, hc, hl⟩ := List.mem_flatMap.mp hl
    refine ⟨c, hc, l, hl, ?_⟩
    have e1 : ({ x.2 with stack := [] } : Logged A) = ownLine [servers[x.1].1] (uriCtx (newTrace ctx addr id "stream" dst).1 servers[x.1].1) [] l := e.symm
    simp only [ownLine, Logged.mk.injEq, and_true] at e1
    obtain ⟨q1, q2, q3, q4, q5⟩ := e1
    simp only [ownLine, ← q1, ← q2, ← q3, ← q4, ← q5]
  have hgood : ∀ x ∈ lines.map Prod.snd, Good W [] (newTrace ctx addr id "stream" dst).1 x := by
    intro x hx
    obtain ⟨y, hy, rfl⟩ := List.mem_map.mp hx
    obtain ⟨uri, calls, -, c, -, l, hl, e⟩ := hof y hy
    rw [e]
    refine ⟨⟨[uri], rfl, ?_⟩, fun m m' => by rw [told_own, told_own, (line_ok hv c l hl).2.2 m m']⟩
    exact Below.pre 0 "<%s>" [Arg.str uri] .here
  have hplain : ∀ x ∈ lines.map Prod.snd, Plain x := by
    intro x hx
    obtain ⟨y, hy, rfl⟩ := List.mem_map.mp hx
    obtain ⟨uri, calls, -, c, -, l, hl, e⟩ := hof y hy
    rw [e]
    obtain ⟨o1, o2, -⟩ := line_ok hv c l hl
    exact ⟨o1, o2⟩
  obtain ⟨t, t1, t2, t3, t4⟩ := traced_output hv.toRendered m ctx addr id "stream" dst hid first mid last (lines.map Prod.snd) hfirst hgood hplain hwr hca hmk hlast
    w w' hrun hw level hl
  have herr : ((lines.map Prod.snd).any fun x => isErr x.kind) = anyFailed servers := by
    rw [Bool.eq_iff_iff, List.any_eq_true]
    unfold anyFailed
    simp only [List.any_eq_true]
    constructor
    · rintro ⟨x, hx, hk⟩
      obtain ⟨y, hy, rfl⟩ := List.mem_map.mp hx
      obtain ⟨uri, calls, hs, c, hc, l, hl, e⟩ := hof y hy
      refine ⟨(uri, calls), List.mem_of_getElem? hs, c, hc, ?_⟩
      rw [← err_lines (v := v), List.any_eq_true]
      rw [e] at hk
      exact ⟨l, hl, hk⟩
    · rintro ⟨⟨uri, calls⟩, hs, c, hc, he⟩
      rw [← err_lines (v := v), List.any_eq_true] at he
      obtain ⟨l, hl, hk⟩ := he
      obtain ⟨i, hi⟩ := List.getElem?_of_mem hs
      have hm : ownLine [uri] (uriCtx (newTrace ctx addr id "stream" dst).1 uri) [] l ∈
          (calls.flatMap (Call.lines v)).map (ownLine [uri] (uriCtx (newTrace ctx addr id "stream" dst).1 uri) []) :=
        List.mem_map_of_mem (List.mem_flatMap.mpr ⟨c, hc, hl⟩)
      rw [← hlines i uri calls hi] at hm
      obtain ⟨y, hy, e⟩ := List.mem_map.mp hm
      refine ⟨y.2, List.mem_map_of_mem (List.mem_filter.mp hy).1, ?_⟩
      have := congrArg Logged.kind e
      simp only [ownLine] at this
      rw [this]; exact hk
  rw [herr] at t3 t4
  refine ⟨t, lines.map fun x => (x.1, printed m x.2), t1, t2, t3, ?_, ?_, ?_⟩
  · intro x hx
    obtain ⟨y, hy, rfl⟩ := List.mem_map.mp hx
    exact hlt y hy
  · intro i hi
    have e := congrArg (List.map (printed m)) (hlines i servers[i].1 servers[i].2 (List.getElem?_eq_getElem hi))
    rw [server_printed hv] at e
    rw [show servers[i] = (servers[i].1, servers[i].2) from rfl, ← e, List.filter_map, List.map_map, List.map_map]
    rfl
  · rw [t4, List.map_map, List.map_map]
    rfl

/-- **C153** At all other levels, nothing of this is printed. -/
theorem C153_quiet (level : String) (h : level ∈ ["info", "i", "debug", "d", "none", "n"]) (texts : List String) : traceOutput level texts = some "" :=
  C137_quiet level h texts

/-- **C153** What `Stream` logs while it runs (C135) is what the lines of the call say: those for its events, and in the end for its error. -/
theorem C153_stream (hv : v.Rendered W quote) (m : W) {c : FullClient} {f : Filter} {raw : Bytes} {s : RSt} (h : c.Reach quote f raw s) {r : CRes}
    (hr : s.st.pc = .returned r) :
    ∃ err : Option String, (err = none ↔ r = .nil) ∧
      (s.effs.filterMap logLine) =
        ((Call.mk s.evs err).lines v).map fun l => (isErr l.1, sprintf m l.2.1 l.2.2) := by
  obtain ⟨-, last, hend, heffs⟩ := C135_reports h
  have hlogs : ∀ l : List SEff, (l.filterMap logLine) =
      ((l.filter isReport).filterMap logLine) := by
    intro l
    induction l with
    | nil => rfl
    | cons e l ih => cases e <;> simp only [List.filter_cons, List.filterMap_cons, isReport, logLine, ih, if_true, Bool.false_eq_true, if_false]
  have hev : (s.evs.flatMap (reported quote)).filterMap logLine =
      (s.evs.flatMap (eventLines v)).map fun l => (isErr l.1, sprintf m l.2.1 l.2.2) := by
    induction s.evs with
    | nil => rfl
    | cons ev evs ih =>
      rw [List.flatMap_cons, List.filterMap_append, ih, List.flatMap_cons, List.map_append]
      congr 1
      unfold reported
      rw [← line_noted, List.filterMap_cons]
      simp only [logLine]
      unfold Ev.line eventLines
      split
      · simp [text_init hv, isErr, logLine]
      · split
        · simp
        · split
          · cases unmarshal (0, 0, 0) decStreamStats ev.json with
            | none => simp
            | some st =>
              obtain ⟨a, b, c⟩ := st
              simp [text_stats hv, isErr, statsString, logLine]
          · simp [text_unknown hv, isErr, logLine]
  have hfail : ∀ e : String, ((endLines v (some e)).map fun l => (isErr l.1, sprintf m l.2.1 l.2.2)) = [(true, "error: " ++ e)] := by
    intro e
    simp [endLines, isErr, text_failed hv.toRendered]
  rw [hlogs, heffs, List.filterMap_append, hev]
  rw [hr] at hend
  cases hend with
  | nil => exact ⟨none, by simp, by simp [Call.lines, endLines]⟩
  | @readError text =>
    refine ⟨some ("read server-sent event: " ++ text), by simp, ?_⟩
    simp only [Call.lines, List.map_append, hfail]
    rw [← String.append_assoc]; rfl
  | @badTrace text =>
    refine ⟨some ("decode trace event: " ++ text), by simp, ?_⟩
    simp only [Call.lines, List.map_append, hfail]
    rw [← String.append_assoc]; rfl
  | @badStats text =>
    refine ⟨some ("invalid stats event: " ++ text), by simp, ?_⟩
    simp only [Call.lines, List.map_append, hfail]
    rw [← String.append_assoc]; rfl

end Trc.Cmd

namespace Trc.Cmd.StreamTracing.Witness

open Trc.Wrap Trc.Web Trc.Web.Using Core Core.Spec Fmt
open Trc.Cmd.Tracing.Witness (env)

/-- Two servers: the first one sends an init event, a trace and statistics before the connection is lost, and then cannot be reached; the second one, of
another version, sends an event of an unknown type meanwhile. -/
def vals : StreamValues String :=
  ⟨⟨toString, fun s => s⟩, fun st => "skips=" ++ toString st.1 ++ " sends=" ++ toString st.2.1 ++ " drops=" ++ toString st.2.2⟩

theorem vals_ok : vals.Rendered Unit (fun s => s) where
  str := fun _ _ => rfl
  num := fun _ _ => rfl
  err := fun _ _ => rfl
  quoted := fun _ _ => rfl
  stats := fun _ _ _ _ => rfl

def servers : List (String × List Call) :=
  [("http://a/", [⟨[⟨"init", "{}", none⟩, ⟨"trace", "{}", none⟩, ⟨"stats", "null", some .null⟩], none⟩, ⟨[], some "down"⟩]),
    ("http://b/", [⟨[⟨"ping", "", none⟩], none⟩])]

def ctx : Ctx String := (newTrace .background 0 "01H" "stream" 7).1

def a1 : Logged String := ownLine ["http://a/"] (uriCtx ctx "http://a/") [] (.lazyTracef, "init: %s", ["{}"])
def a2 : Logged String := ownLine ["http://a/"] (uriCtx ctx "http://a/") [] (.lazyTracef, "%s", ["skips=0 sends=0 drops=0"])
def a3 : Logged String := ownLine ["http://a/"] (uriCtx ctx "http://a/") [] (.errorf, "error: %v", ["down"])
def b1 : Logged String := ownLine ["http://b/"] (uriCtx ctx "http://b/") [] (.lazyTracef, "unknown event type %q", ["ping"])

def lines : List (Nat × Logged String) := [(0, a1), (1, b1), (0, a2), (0, a3)]

def acts : List (Act String) := (lines.map Prod.snd).flatMap loggedActs

/-- The first event is added last. -/
def mid : List (Act String) := [acts.headD (.publish (.core 0))] ++ acts.drop 2 ++ (acts.drop 1).take 1

def run : List (AEnv Unit × Act String) :=
  (newTrace .background 0 "01H" "stream" 7).2.2.map (fun a => (env 5, a)) ++ mid.map (fun a => (env 6, a)) ++
    (newTrace .background 0 "01H" "stream" 7).2.1.finishActs.map fun a => (env 9, a)

theorem traced : StreamTraced vals .background 0 "01H" 7 servers run := by
  refine ⟨_, _, _, lines, rfl, by rw [List.map_map]; exact List.map_id _, ?_, ?_, ?_, ?_, ?_, by rw [List.map_map]; exact List.map_id _⟩
  · intro x hx
    simp only [lines, List.mem_cons, List.not_mem_nil, or_false] at hx
    rcases hx with rfl | rfl | rfl | rfl <;> decide
  · intro i uri calls hs
    match i with
    | 0 => obtain ⟨rfl, rfl⟩ := Prod.mk.inj (Option.some.inj hs); rfl
    | 1 => obtain ⟨rfl, rfl⟩ := Prod.mk.inj (Option.some.inj hs); rfl
    | i + 2 => cases hs
  · rw [List.map_map, show (Prod.snd ∘ fun a : Act String => (env 6, a)) = _root_.id from rfl, List.map_id]
    rfl
  · rw [List.map_map, show (Prod.snd ∘ fun a : Act String => (env 6, a)) = _root_.id from rfl, List.map_id]
    have h1 : mid.filter (callsOn 0) = (acts.filter (callsOn 0)).drop 1 ++ (acts.filter (callsOn 0)).take 1 := rfl
    rw [h1]
    exact List.perm_append_comm.trans (by rw [List.take_append_drop]; exact List.Perm.refl _)
  · intro p hp source category e
    obtain ⟨a, ha, rfl⟩ := List.mem_map.mp hp
    simp only at e
    subst e
    have : mid.all (fun a => match a with | .make _ _ _ => false | _ => true) = true := by decide +kernel
    have := List.all_eq_true.mp this _ ha
    cases this

instance : Humanize := ⟨fun d => toString d ++ "ns"⟩

theorem runs : (({} : World String).run run).isSome = true := by decide +kernel

example : ∃ w, ∃ middle : List (Nat × String), ({} : World String).run run = some w ∧
    (middle.filter fun x => decide (x.1 = 0)).map Prod.snd =
      ["<http://a/> init: {}", "<http://a/> skips=0 sends=0 drops=0", "ERROR: <http://a/> error: down"] ∧
    (middle.filter fun x => decide (x.1 = 1)).map Prod.snd = ["<http://b/> unknown event type ping"] ∧
    ∃ took, traceOutput "trace" (w.written 7) = some (String.join ((["started, source 'trc', category 'stream'"] ++ middle.map Prod.snd ++
      ["done, " ++ "errored" ++ ", " ++ took]).map fun x => "[TRACE] " ++ ("01H" ++ " " ++ x) ++ "\n")) := by
  obtain ⟨w, hw⟩ := Option.isSome_iff_exists.mp runs
  obtain ⟨t, middle, -, -, -, -, h1, h2⟩ := C153_told (W := Unit) vals_ok .background 0 "01H" 7 servers (by decide) run traced {} w hw rfl "trace" (.inl rfl)
  refine ⟨w, middle, hw, (h1 0 (by decide)).trans ?_, (h1 1 (by decide)).trans ?_, _, h2⟩
  · decide +kernel
  · decide +kernel

end Trc.Cmd.StreamTracing.Witness
