import Verif.Web.Using
import Verif.Props.StreamClient

/-!
# C134: clients use the HTTP client they are given; C135: a stream client reports what it receives
-/

set_option linter.unusedVariables false

namespace Trc.Web.Using

open Trc.Broker

/-! ## C134, searches -/

/-- The requests made, and by whom. -/
def requests (effs : List Eff) : List (Nat × OutReq) :=
  effs.filterMap fun e => match e with
    | .do_ c r => some (c, r)
    | _ => none

/-- The calls of `Read`, and what they gave. -/
def reads (effs : List Eff) : List (Option Bytes) :=
  effs.filterMap fun e => match e with
    | .read x => some x
    | _ => none

/-- How often the body was closed. -/
def closes (effs : List Eff) : Nat := effs.countP fun e => match e with
  | .close => true
  | _ => false

theorem requests_append (a b : List Eff) : requests (a ++ b) = requests a ++ requests b := List.filterMap_append
theorem reads_append (a b : List Eff) : reads (a ++ b) = reads a ++ reads b := List.filterMap_append
theorem closes_append (a b : List Eff) : closes (a ++ b) = closes a + closes b := List.countP_append

theorem drain_spec (rest : List Bytes) : requests (drain rest) = [] ∧ reads (drain rest) = rest.map some ++ [none] ∧ closes (drain rest) = 0 := by
  induction rest with
  | nil => exact ⟨rfl, rfl, rfl⟩
  | cons c rest ih =>
    obtain ⟨h1, h2, h3⟩ := ih
    have e : drain (c :: rest) = .read (some c) :: drain rest := rfl
    rw [e]
    exact ⟨h1, by simpa [reads] using h2, by simpa [closes] using h3⟩

theorem decode_spec {R : Type} (d : Decoder R) (ending : Option String) (before rest : List Bytes) :
    requests (decode d ending before rest).2.2 = [] ∧ closes (decode d ending before rest).2.2 = 0 ∧
    ∃ k, reads (decode d ending before rest).2.2 ++ (decode d ending before rest).2.1.map some = rest.map some ++ List.replicate k none ∧
      (0 < k → (decode d ending before rest).2.1 = []) := by
  induction rest generalizing before with
  | nil => exact ⟨rfl, rfl, 1, rfl, fun _ => rfl⟩
  | cons c rest ih =>
    simp only [decode]
    cases h : d.step (before ++ [c]) with
    | some r => exact ⟨rfl, rfl, 0, by simp [reads], by simp⟩
    | none =>
      obtain ⟨h1, h2, k, h3, h4⟩ := ih (before ++ [c])
      refine ⟨h1, by simpa [closes] using h2, k, ?_, h4⟩
      have : ∀ effs, reads (.read (some c) :: effs) = some c :: reads effs := fun _ => rfl
      simp only [this, List.map_cons, List.cons_append, h3]

/-- A response was read to its end, and then closed, once; it was left alone afterwards. -/
def DrainedAndClosed (res : Resp) (effs : List Eff) : Prop :=
  ∃ before after, effs = before ++ .close :: after ∧ closes before = 0 ∧ closes after = 0 ∧ reads after = [] ∧
    ∃ k, 0 < k ∧ reads before = res.chunks.map some ++ List.replicate k none

theorem receive_spec {R : Type} (c : SearchClient) (statusText : Int → String) (d : Decoder R) (found : R → String) (res : Resp) :
    requests (c.receive statusText d found res).2 = [] ∧
    ∃ before, (c.receive statusText d found res).2 = before ++ [.close] ∧ closes before = 0 ∧
      ∃ k, 0 < k ∧ reads before = res.chunks.map some ++ List.replicate k none := by
  unfold SearchClient.receive
  by_cases hs : res.status ≠ 200
  · rw [if_pos hs]
    obtain ⟨h1, h2, h3⟩ := drain_spec res.chunks
    refine ⟨by rw [requests_append, h1]; rfl, _, rfl, h3, 1, Nat.one_pos, h2⟩
  · rw [if_neg hs]
    obtain ⟨g1, g2, k, g3, g4⟩ := decode_spec d res.ending [] res.chunks
    obtain ⟨x, hx⟩ : ∃ x, decode d res.ending [] res.chunks = x := ⟨_, rfl⟩
    rw [hx] at g1 g2 g3 g4 ⊢
    obtain ⟨r, left, effs⟩ := x
    obtain ⟨h1, h2, h3⟩ := drain_spec left
    have hrep : (List.replicate k (none : Option Bytes)) ++ [none] = List.replicate (k + 1) none := by
      rw [List.replicate_succ']
    cases r with
    | error e =>
      refine ⟨by rw [requests_append, requests_append, g1, h1]; rfl, _, rfl, by rw [closes_append, g2, h3], k + 1, Nat.succ_pos _, ?_⟩
      rw [reads_append, h2, ← List.append_assoc, g3, List.append_assoc, hrep]
    | ok r =>
      refine ⟨by rw [requests_append, requests_append, requests_append, g1, h1]; rfl, _, rfl, ?_, k + 1, Nat.succ_pos _, ?_⟩
      · rw [closes_append, closes_append, g2, h3]; rfl
      · have e : reads [Eff.log false (c.uri ++ " -> " ++ found r)] = [] := rfl
        rw [reads_append, reads_append, e, List.append_nil, h2, ← List.append_assoc, g3, List.append_assoc, hrep]

theorem logError_spec {R : Type} (r : Except String R) : requests (logError r) = [] ∧ reads (logError r) = [] ∧ closes (logError r) = 0 := by
  cases r <;> exact ⟨rfl, rfl, rfl⟩

/-- **C134** `Search` of a `SearchClient` makes one request, a GET of its URI with the encoded search request, through the HTTP client it was made with; none if
the request cannot be made at all.  If there is a response, it is read to its end and closed, whatever is in it; and if there is none, nothing is read or closed. -/
theorem C134_search {R : Type} (c : SearchClient) (marshal : Except String Bytes) (create : Option String)
    (net : Nat → OutReq → Except String Resp) (statusText : Int → String) (d : Decoder R) (found : R → String) :
    let effs := (c.search marshal create net statusText d found).2
    (∀ e, marshal = .error e → effs = [.log true ("error: encode search request: " ++ e)]) ∧
    ∀ body, marshal = .ok body →
      (∀ e, create = some e → effs = [.log true ("error: create HTTP request: " ++ e)]) ∧
      (create = none →
        ∃ req : OutReq, req.method = "GET" ∧ req.uri = c.uri ∧ req.body = body ∧
          req.headers = [("content-type", "application/json; charset=utf-8"), ("accept", "application/json")] ∧
          requests effs = [(c.client, req)] ∧
          (∀ e, net c.client req = .error e → reads effs = [] ∧ closes effs = 0) ∧
          ∀ res, net c.client req = .ok res → DrainedAndClosed res effs) := by
  refine ⟨?_, ?_⟩
  · rintro e rfl
    simp only [SearchClient.search, logError, List.nil_append, ← String.append_assoc]
    rfl
  · rintro body rfl
    refine ⟨?_, ?_⟩
    · rintro e rfl
      simp only [SearchClient.search, logError, List.nil_append, ← String.append_assoc]
      rfl
    · rintro rfl
      refine ⟨c.request body, rfl, rfl, rfl, rfl, ?_, ?_, ?_⟩
      · simp only [SearchClient.search]
        cases h : net c.client (c.request body) with
        | error e => rw [requests_append, (logError_spec _).1]; rfl
        | ok res =>
          simp only
          rw [requests_append, (logError_spec _).1]
          have := (receive_spec c statusText d found res).1
          have e : ∀ effs, requests (.do_ c.client (c.request body) :: effs) = (c.client, c.request body) :: requests effs := fun _ => rfl
          rw [e, this]
          rfl
      · intro e h
        simp only [SearchClient.search, h]
        rw [reads_append, closes_append, (logError_spec _).2.1, (logError_spec _).2.2]
        exact ⟨rfl, rfl⟩
      · intro res h
        simp only [SearchClient.search, h]
        obtain ⟨-, before, e, h1, k, h2, h3⟩ := receive_spec c statusText d found res
        obtain ⟨-, l2, l3⟩ := logError_spec (c.receive statusText d found res).1
        refine ⟨.do_ c.client (c.request body) :: before, logError (c.receive statusText d found res).1, ?_, ?_, l3, l2, k, h2, ?_⟩
        · rw [e]; simp
        · simpa [closes] using h1
        · have e : ∀ effs, reads (.do_ c.client (c.request body) :: effs) = reads effs := fun _ => rfl
          rw [e, h3]

/-- The lines in the trace of the context. -/
def lines (effs : List Eff) : List (Bool × String) :=
  effs.filterMap fun e => match e with
    | .log isError text => some (isError, text)
    | _ => none

theorem lines_append (a b : List Eff) : lines (a ++ b) = lines a ++ lines b := List.filterMap_append

theorem drain_lines (rest : List Bytes) : lines (drain rest) = [] := by
  induction rest with
  | nil => rfl
  | cons c rest ih => exact ih

theorem decode_lines {R : Type} (d : Decoder R) (ending : Option String) (before rest : List Bytes) : lines (decode d ending before rest).2.2 = [] := by
  induction rest generalizing before with
  | nil => rfl
  | cons c rest ih =>
    simp only [decode]
    cases h : d.step (before ++ [c]) with
    | some r => rfl
    | none => exact ih _

/-- **C134** The trace of the context has one line: how much was found, or the error. -/
theorem C134_lines {R : Type} (c : SearchClient) (marshal : Except String Bytes) (create : Option String)
    (net : Nat → OutReq → Except String Resp) (statusText : Int → String) (d : Decoder R) (found : R → String) :
    let (r, effs) := c.search marshal create net statusText d found
    lines effs = match r with
      | .ok r => [(false, c.uri ++ " -> " ++ found r)]
      | .error e => [(true, "error: " ++ e)] := by
  have hrec : ∀ res, lines (c.receive statusText d found res).2 = match (c.receive statusText d found res).1 with
      | .ok r => [(false, c.uri ++ " -> " ++ found r)]
      | .error e => [] := by
    intro res
    unfold SearchClient.receive
    by_cases hs : res.status ≠ 200
    · rw [if_pos hs]
      simp only [lines_append, drain_lines]
      rfl
    · rw [if_neg hs]
      have hl := decode_lines d res.ending [] res.chunks
      obtain ⟨x, hx⟩ : ∃ x, decode d res.ending [] res.chunks = x := ⟨_, rfl⟩
      rw [hx] at hl ⊢
      obtain ⟨y, left, effs⟩ := x
      simp only at hl
      cases y <;> simp only [lines_append, drain_lines, hl] <;> rfl
  simp only [SearchClient.search]
  cases marshal with
  | error e => rfl
  | ok body =>
    cases create with
    | some e => rfl
    | none =>
      simp only
      cases net c.client (c.request body) with
      | error e => rfl
      | ok res =>
        simp only
        have := hrec res
        obtain ⟨y, hy⟩ : ∃ y, c.receive statusText d found res = y := ⟨_, rfl⟩
        rw [hy] at this ⊢
        obtain ⟨r, effs⟩ := y
        have e : ∀ l, lines (.do_ c.client (c.request body) :: l) = lines l := fun _ => rfl
        cases r with
        | ok r =>
          simp only at this
          simp only [lines_append, e, this]
          rfl
        | error m =>
          simp only at this
          simp only [lines_append, e, this]
          rfl

/-- **C134** It succeeds if and only if there is a response with status 200 that decodes. -/
theorem C134_outcome {R : Type} (c : SearchClient) (body : Bytes) (net : Nat → OutReq → Except String Resp) (statusText : Int → String)
    (d : Decoder R) (found : R → String) (r : R) :
    (c.search (.ok body) none net statusText d found).1 = .ok r ↔
      ∃ req res, req = c.request body ∧ net c.client req = .ok res ∧ res.status = 200 ∧ (decode d res.ending [] res.chunks).1 = .ok r := by
  simp only [SearchClient.search]
  constructor
  · intro h
    cases hn : net c.client (c.request body) with
    | error e => rw [hn] at h; cases h
    | ok res =>
      rw [hn] at h
      simp only at h
      refine ⟨_, res, rfl, hn, ?_⟩
      unfold SearchClient.receive at h
      by_cases hs : res.status ≠ 200
      · rw [if_pos hs] at h; cases h
      · rw [if_neg hs] at h
        refine ⟨Classical.byContradiction hs, ?_⟩
        obtain ⟨x, hx⟩ : ∃ x, decode d res.ending [] res.chunks = x := ⟨_, rfl⟩
        rw [hx] at h ⊢
        obtain ⟨y, left, effs⟩ := x
        cases y with
        | error e => cases h
        | ok y => exact h
  · rintro ⟨req, res, rfl, hn, hs, hd⟩
    rw [hn]
    simp only [SearchClient.receive]
    rw [if_neg (by simp [hs])]
    obtain ⟨x, hx⟩ : ∃ x, decode d res.ending [] res.chunks = x := ⟨_, rfl⟩
    rw [hx] at hd ⊢
    obtain ⟨y, left, effs⟩ := x
    simp only at hd
    subst hd
    rfl

/-- A response of two chunks, of which the decoder needs the first: the second one is read all the same. -/
example : (SearchClient.search ⟨7, "http://x"⟩ (.ok [1]) none (fun _ _ => .ok ⟨200, [[2], [3]], none⟩) (fun _ => "")
      ⟨fun l => some (.ok l.length), fun _ _ => .error ""⟩ toString).2 =
    [.do_ 7 ⟨"GET", "http://x", [("content-type", "application/json; charset=utf-8"), ("accept", "application/json")], [1]⟩,
      .read (some [2]), .log false "http://x -> 1", .read (some [3]), .read none, .close] := by decide

/-- A response with status 500. -/
example : (SearchClient.search ⟨7, "http://x"⟩ (.ok [1]) none (fun _ _ => .ok ⟨500, [[2], [3]], none⟩) (fun _ => "Oops")
      (⟨fun l => some (.ok l.length), fun _ _ => .error ""⟩ : Decoder Nat) toString).2 =
    [.do_ 7 ⟨"GET", "http://x", [("content-type", "application/json; charset=utf-8"), ("accept", "application/json")], [1]⟩,
      .read (some [2]), .read (some [3]), .read none, .close, .log true "error: read HTTP response: server gave HTTP 500 (Oops)"] := by decide

/-! ## C134, streams -/

section
variable {quote : String → String} {c : FullClient} {f : Filter} {raw : Bytes} {s : RSt}

theorem request_by (h : c.Reach quote f raw s) (by_ : Requester) (hm : SEff.request by_ ∈ s.effs) : by_ = .eventsource := by
  induction h with
  | refl => simp [FullClient.start] at hm
  | @snoc s₁ s₂ _ hs ih =>
    have hline : ∀ ev : Ev, SEff.request by_ ∉ ev.line quote := by
      intro ev h
      unfold Ev.line at h
      split at h
      · simp at h
      · split at h
        · cases h
        · split at h
          · split at h <;> simp at h
          · simp at h
    have hdef : ∀ detail r, SEff.request by_ ∉ deferred detail r := by
      intro detail r h
      unfold deferred at h
      split at h <;> simp at h
    have hend : ∀ detail pc, SEff.request by_ ∉ atEnd detail pc := by
      intro detail pc h
      cases pc with
      | returned r => exact hdef _ _ h
      | reading => cases h
      | sending x => cases h
    cases hs with
    | request =>
      simp only [List.mem_append, List.mem_singleton, SEff.request.injEq] at hm
      exact hm.elim ih id
    | cancel | sentAway | close | readClosed | skip => exact ih hm
    | readFails =>
      simp only [List.mem_append] at hm
      exact hm.elim ih fun h => absurd h (hdef _ _)
    | readEvent =>
      simp only [List.mem_append, List.mem_cons, reduceCtorEq, false_or] at hm
      rcases hm with (h | h) | h
      · exact ih h
      · exact absurd h (hline _)
      · exact absurd h (hend _ _)
    | send =>
      simp only [List.mem_append, List.mem_singleton, reduceCtorEq, or_false] at hm
      exact ih hm

/-- **C134** is violated by `StreamClient`, always: whatever HTTP client is in its field, no request is made through it. -/
theorem C134_stream_always_violated (h : c.Reach quote f raw s) (client : Nat) : SEff.request (.given client) ∉ s.effs := by
  intro hm
  cases request_by h _ hm

/-- **C134** A `StreamClient` makes its requests through the HTTP client in its field, if there is one, just as long as there is none or it has made no request. -/
theorem C134_stream_exact (h : c.Reach quote f raw s) :
    (∀ client, c.http = some client → ∀ by_, SEff.request by_ ∈ s.effs → by_ = .given client) ↔
      c.http = none ∨ ∀ by_, SEff.request by_ ∉ s.effs := by
  constructor
  · intro hall
    cases hc : c.http with
    | none => exact Or.inl rfl
    | some client =>
      refine Or.inr fun by_ hm => ?_
      have := hall client hc by_ hm
      rw [request_by h by_ hm] at this
      cases this
  · rintro (hn | hn) client hc by_ hm
    · rw [hn] at hc; cases hc
    · exact absurd hm (hn by_)

/-- **C134** The field has no effect at all: with any other HTTP client, `Stream` can do the same. -/
theorem C134_stream_ignored (http : Option Nat) (h : c.Reach quote f raw s) : ({ c with http } : FullClient).Reach quote f raw s := by
  unfold FullClient.Reach at h ⊢
  have e : ({ c with http } : FullClient).start f raw = c.start f raw := rfl
  rw [e]
  induction h with
  | refl => exact .refl
  | snoc _ hs ih =>
    refine .snoc ih ?_
    cases hs with
    | request => exact .request
    | cancel => exact .cancel
    | sentAway => exact .sentAway
    | close h => exact .close h
    | readClosed h h' => exact .readClosed h h'
    | readFails h => exact .readFails h
    | readEvent h => exact .readEvent h
    | skip h h' => exact .skip h h'
    | send h => exact .send h

/-! ## C135 -/

/-- What is noted about an event in the trace of the context. -/
def noted (quote : String → String) (ev : Ev) : Option String :=
  match ev.type with
  | "init" => some ("init: " ++ ev.raw)
  | "trace" => none
  | "stats" =>
    match unmarshal (0, 0, 0) decStreamStats ev.json with
    | some (skips, sends, drops) => some ("skips=" ++ toString skips ++ " sends=" ++ toString sends ++ " drops=" ++ toString drops)
    | none => none
  | _ => some ("unknown event type " ++ quote ev.type)

/-- `OnRead`, and then what is noted. -/
def reported (quote : String → String) (ev : Ev) : List SEff :=
  .onRead ev.type ev.raw :: (noted quote ev).toList.map (.log false)

theorem line_noted (ev : Ev) : ev.line quote = (noted quote ev).toList.map (SEff.log false) := by
  unfold Ev.line noted
  split
  · rename_i h; simp [h]
  · split
    · rename_i h; simp [h]
    · split
      · rename_i h
        simp only [h]
        cases unmarshal (0, 0, 0) decStreamStats ev.json <;> rfl
      · rename_i h1 h2 h3
        split
        · rename_i e; exact absurd e h1
        · rename_i e; exact absurd e h2
        · rename_i e; exact absurd e h3
        · rfl

/-- `OnRead` and lines. -/
def isReport : SEff → Bool
  | .onRead _ _ => true
  | .log _ _ => true
  | _ => false

def isRequest : SEff → Bool
  | .request _ => true
  | _ => false

def delivered : SEff → Option Static
  | .deliver x => some x
  | _ => none

/-- What is logged at the end: the error, if there is one. -/
inductive Ended : CPC → List SEff → Prop
  | reading : Ended .reading []
  | sending {x} : Ended (.sending x) []
  | nil : Ended (.returned .nil) []
  | readError {text} : Ended (.returned .readError) [.log true ("error: read server-sent event: " ++ text)]
  | badTrace {text} : Ended (.returned .badTrace) [.log true ("error: decode trace event: " ++ text)]
  | badStats {text} : Ended (.returned .badStats) [.log true ("error: invalid stats event: " ++ text)]

/-- The trace is that of the event read last. -/
def From (evs : List Ev) (effs : List SEff) (x : Static) : Prop :=
  ∃ pre ev mid, effs = pre ++ .onRead ev.type ev.raw :: mid ∧ (∀ e ∈ mid, isRequest e = true) ∧ ev ∈ evs ∧ ev.type = "trace" ∧
    unmarshal zeroStatic decStatic ev.json = some x

structure RInv (quote : String → String) (s : RSt) : Prop where
  base : CReach s.st
  read : s.st.read = s.evs.map Ev.sse
  reports : ∃ last, Ended s.st.pc last ∧ s.effs.filter isReport = s.evs.flatMap (reported quote) ++ last
  sent : s.effs.filterMap delivered = s.st.sent
  sending : ∀ x, s.st.pc = .sending x → From s.evs s.effs x
  order : ∀ a x b, s.effs = a ++ .deliver x :: b → From s.evs a x

theorem ended_atEnd (detail : String) (pc : CPC) : Ended pc (atEnd detail pc) := by
  cases pc with
  | reading => exact .reading
  | sending x => exact .sending
  | returned r =>
    cases r with
    | nil => exact .nil
    | readError =>
      have e : "error: " ++ ("read server-sent event: " ++ detail) = "error: read server-sent event: " ++ detail := by
        rw [← String.append_assoc]
        exact congrArg (· ++ detail) (by decide)
      have e' : atEnd detail (.returned .readError) = [.log true ("error: " ++ ("read server-sent event: " ++ detail))] := rfl
      rw [e', e]
      exact .readError
    | badTrace =>
      have e : "error: " ++ ("decode trace event: " ++ detail) = "error: decode trace event: " ++ detail := by
        rw [← String.append_assoc]
        exact congrArg (· ++ detail) (by decide)
      have e' : atEnd detail (.returned .badTrace) = [.log true ("error: " ++ ("decode trace event: " ++ detail))] := rfl
      rw [e', e]
      exact .badTrace
    | badStats =>
      have e : "error: " ++ ("invalid stats event: " ++ detail) = "error: invalid stats event: " ++ detail := by
        rw [← String.append_assoc]
        exact congrArg (· ++ detail) (by decide)
      have e' : atEnd detail (.returned .badStats) = [.log true ("error: " ++ ("invalid stats event: " ++ detail))] := rfl
      rw [e', e]
      exact .badStats

theorem from_more {evs evs' : List Ev} {effs : List SEff} {x : Static} (h : From evs effs x) (hs : ∀ e ∈ evs, e ∈ evs') : From evs' effs x := by
  obtain ⟨pre, ev, mid, h1, h2, h3, h4, h5⟩ := h
  exact ⟨pre, ev, mid, h1, h2, hs _ h3, h4, h5⟩

/-- A delivery within what was done before. -/
theorem split_old {effs more a b : List SEff} {x : Static} (hm : ∀ e ∈ more, delivered e = none) (h : effs ++ more = a ++ .deliver x :: b) :
    ∃ b', effs = a ++ .deliver x :: b' := by
  rcases List.append_eq_append_iff.mp h with ⟨a', h1, h2⟩ | ⟨c', h1, h2⟩
  · have : SEff.deliver x ∈ more := by rw [h2]; simp
    have := hm _ this
    cases this
  · cases c' with
    | nil =>
      simp only [List.nil_append] at h2
      have : SEff.deliver x ∈ more := by rw [← h2]; simp
      have := hm _ this
      cases this
    | cons y c' =>
      simp only [List.cons_append, List.cons.injEq] at h2
      obtain ⟨rfl, -⟩ := h2
      exact ⟨c', h1⟩

theorem rinv_start : RInv quote (c.start f raw) where
  base := .refl
  read := rfl
  reports := ⟨[], .reading, rfl⟩
  sent := rfl
  sending := by intro x h; simp [FullClient.start] at h
  order := by
    intro a x b h
    have : SEff.deliver x ∈ (c.start f raw).effs := by rw [h]; simp
    simp [FullClient.start] at this

theorem quiet (l : List SEff) (h : ∀ e ∈ l, delivered e = none) : l.filterMap delivered = [] :=
  List.filterMap_eq_nil_iff.mpr h

theorem logs_quiet (ev : Ev) (detail : String) : ∀ e ∈ SEff.onRead ev.type ev.raw :: ev.line quote ++ atEnd detail (dispatch ev.sse),
    delivered e = none ∧ isReport e = true := by
  intro e he
  rw [line_noted] at he
  simp only [List.cons_append, List.mem_cons, List.mem_append, List.mem_map] at he
  rcases he with rfl | ⟨t, -, rfl⟩ | he
  · exact ⟨rfl, rfl⟩
  · exact ⟨rfl, rfl⟩
  · have hd := ended_atEnd detail (dispatch ev.sse)
    obtain ⟨pc, hpc⟩ : ∃ pc, dispatch ev.sse = pc := ⟨_, rfl⟩
    rw [hpc] at hd he
    generalize atEnd detail pc = l at hd he
    cases hd <;> simp at he <;> subst he <;> exact ⟨rfl, rfl⟩

theorem rinv_step {s' : RSt} (h : RInv quote s) (hs : RStep quote c s s') : RInv quote s' := by
  obtain ⟨last, hl, hr⟩ := h.reports
  cases hs with
  | request =>
    refine ⟨h.base, h.read, ⟨last, hl, ?_⟩, ?_, ?_, ?_⟩
    · rw [List.filter_append, hr]; simp [isReport]
    · rw [List.filterMap_append, h.sent]; simp [delivered]
    · intro x hx
      obtain ⟨pre, ev, mid, h1, h2, h3⟩ := h.sending x hx
      refine ⟨pre, ev, mid ++ [.request .eventsource], by simp [h1], ?_, h3⟩
      intro e he
      rcases List.mem_append.mp he with he | he
      · exact h2 e he
      · rw [List.mem_singleton.mp he]; rfl
    · intro a x b e
      obtain ⟨b', e'⟩ := split_old (by intro y hy; rw [List.mem_singleton.mp hy]; rfl) e
      exact h.order a x b' e'
  | cancel => exact ⟨.snoc h.base .cancel, h.read, h.reports, h.sent, h.sending, h.order⟩
  | sentAway => exact ⟨.snoc h.base .sentAway, h.read, h.reports, h.sent, h.sending, h.order⟩
  | close hc => exact ⟨.snoc h.base (.close hc), h.read, h.reports, h.sent, h.sending, h.order⟩
  | readClosed hp hc =>
    refine ⟨.snoc h.base (.readClosed hp hc), h.read, ⟨[], .nil, ?_⟩, h.sent, by intro x hx; simp at hx, h.order⟩
    rw [hp] at hl
    cases hl
    exact hr
  | @readFails detail hp =>
    rw [hp] at hl
    cases hl
    have hd : ∀ e ∈ deferred detail .readError, delivered e = none ∧ isReport e = true := by
      intro e he
      simp only [deferred, reduceCtorEq, if_false, List.mem_singleton] at he
      subst he
      exact ⟨rfl, rfl⟩
    refine ⟨.snoc h.base (.readFails hp), h.read, ⟨_, ended_atEnd detail (.returned .readError), ?_⟩, ?_, by intro x hx; simp at hx, ?_⟩
    · rw [List.filter_append, hr, List.filter_eq_self.mpr fun e he => (hd e he).2]
      simp [atEnd]
    · rw [List.filterMap_append, quiet _ fun e he => (hd e he).1, List.append_nil, h.sent]
    · intro a x b e
      obtain ⟨b', e'⟩ := split_old (fun y hy => (hd y hy).1) e
      exact h.order a x b' e'
  | @readEvent detail ev hp =>
    rw [hp] at hl
    cases hl
    have hd := logs_quiet (quote := quote) ev detail
    refine ⟨.snoc h.base (.readEvent hp), by simp [h.read], ⟨_, ended_atEnd detail (dispatch ev.sse), ?_⟩, ?_, ?_, ?_⟩
    · have e : s.effs ++ .onRead ev.type ev.raw :: ev.line quote ++ atEnd detail (dispatch ev.sse) =
          s.effs ++ (.onRead ev.type ev.raw :: ev.line quote ++ atEnd detail (dispatch ev.sse)) := by simp
      rw [e, List.filter_append, hr, List.filter_eq_self.mpr fun e he => (hd e he).2, line_noted]
      simp [reported]
    · have e : s.effs ++ .onRead ev.type ev.raw :: ev.line quote ++ atEnd detail (dispatch ev.sse) =
          s.effs ++ (.onRead ev.type ev.raw :: ev.line quote ++ atEnd detail (dispatch ev.sse)) := by simp
      rw [e, List.filterMap_append, quiet _ fun e he => (hd e he).1, List.append_nil, h.sent]
    · intro x hx
      have hx' : dispatch ev.sse = .sending x := hx
      have ht : ev.type = "trace" ∧ unmarshal zeroStatic decStatic ev.json = some x := by
        unfold dispatch at hx'
        by_cases h1 : ev.sse.type = "init"
        · rw [if_pos h1] at hx'; cases hx'
        · rw [if_neg h1] at hx'
          by_cases h2 : ev.sse.type = "trace"
          · rw [if_pos h2] at hx'
            refine ⟨h2, ?_⟩
            cases h3 : unmarshal zeroStatic decStatic ev.sse.data with
            | none => rw [h3] at hx'; cases hx'
            | some y => rw [h3] at hx'; cases hx'; exact h3
          · rw [if_neg h2] at hx'
            by_cases h3 : ev.sse.type = "stats"
            · rw [if_pos h3] at hx'
              cases h4 : unmarshal (0, 0, 0) decStreamStats ev.sse.data with
              | none => rw [h4] at hx'; cases hx'
              | some y => rw [h4] at hx'; cases hx'
            · rw [if_neg h3] at hx'; cases hx'
      refine ⟨s.effs, ev, [], ?_, by simp, by simp, ht⟩
      have e1 : ev.line quote = [] := by
        unfold Ev.line
        rw [if_neg (by rw [ht.1]; decide), if_pos ht.1]
      simp only [e1, hx', atEnd, List.append_nil]
    · intro a x b e
      have e : s.effs ++ (.onRead ev.type ev.raw :: ev.line quote ++ atEnd detail (dispatch ev.sse)) = a ++ .deliver x :: b := by
        rw [← e]; simp
      obtain ⟨b', e'⟩ := split_old (fun y hy => (hd y hy).1) e
      exact from_more (h.order a x b' e') (by intro y hy; simp [hy])
  | skip hp hc =>
    rw [hp] at hl
    cases hl
    exact ⟨.snoc h.base (.skip hp hc), h.read, ⟨[], .reading, hr⟩, h.sent, by intro x hx; simp at hx, h.order⟩
  | @send x hp =>
    rw [hp] at hl
    cases hl
    refine ⟨.snoc h.base (.send hp), h.read, ⟨[], .reading, ?_⟩, ?_, by intro x hx; simp at hx, ?_⟩
    · rw [List.filter_append, hr]; simp [isReport]
    · rw [List.filterMap_append, h.sent]; simp [delivered]
    · intro a y b e
      rcases List.append_eq_append_iff.mp e with ⟨a', h1, h2⟩ | ⟨c', h1, h2⟩
      · cases a' with
        | nil =>
          simp only [List.nil_append, List.cons.injEq, SEff.deliver.injEq] at h2
          obtain ⟨rfl, -⟩ := h2
          rw [List.append_nil] at h1
          rw [h1]
          exact h.sending _ hp
        | cons z a' =>
          simp only [List.cons_append, List.cons.injEq] at h2
          have := congrArg List.length h2.2
          simp at this
      · cases c' with
        | nil =>
          simp only [List.nil_append, List.cons.injEq, SEff.deliver.injEq] at h2
          obtain ⟨rfl, -⟩ := h2
          rw [List.append_nil] at h1
          rw [← h1]
          exact h.sending _ hp
        | cons z c' =>
          simp only [List.cons_append, List.cons.injEq] at h2
          obtain ⟨rfl, -⟩ := h2
          exact h.order a y c' h1

theorem rinv (h : c.Reach quote f raw s) : RInv quote s := by
  unfold FullClient.Reach at h
  generalize hx : c.start f raw = s₀ at h
  induction h with
  | refl => rw [← hx]; exact rinv_start
  | snoc _ hs ih => exact rinv_step ih hs

/-- **C135** `OnRead` is called for each event that `Stream` reads, in order and once, with its type and its data; the trace of the context has a line with the data of
each init event, the numbers of all statistics and the type of each unknown event, and in the end the error, if `Stream` returns one; and nothing else. -/
theorem C135_reports (h : c.Reach quote f raw s) :
    s.st.read = s.evs.map (fun ev => ⟨ev.type, ev.json⟩) ∧
    ∃ last, Ended s.st.pc last ∧ s.effs.filter isReport = s.evs.flatMap (reported quote) ++ last :=
  ⟨(rinv h).read, (rinv h).reports⟩

/-- **C135** The traces that are delivered are those of trace events; a trace is delivered after `OnRead` was called for its event, and before it is called for
another one. -/
theorem C135_delivers (h : c.Reach quote f raw s) :
    s.effs.filterMap delivered = s.st.sent ∧
    ∀ before x after, s.effs = before ++ .deliver x :: after →
      ∃ pre ev mid, before = pre ++ .onRead ev.type ev.raw :: mid ∧ (∀ e ∈ mid, isRequest e = true) ∧ ev ∈ s.evs ∧ ev.type = "trace" ∧
        unmarshal zeroStatic decStatic ev.json = some x :=
  ⟨(rinv h).sent, (rinv h).order⟩

/-- **C135** All states of the loop alone (C81) are states of this one. -/
theorem C135_loop (c : FullClient) (f : Filter) (raw : Bytes) {st : CSt} (h : CReach st) : ∃ s, c.Reach quote f raw s ∧ s.st = st := by
  unfold CReach at h
  generalize hx : ({} : CSt) = st₀ at h
  induction h with
  | refl => exact ⟨c.start f raw, .refl, hx⟩
  | snoc _ hs ih =>
    obtain ⟨s, h1, rfl⟩ := ih
    cases hs with
    | cancel => exact ⟨_, .snoc h1 .cancel, rfl⟩
    | sentAway => exact ⟨_, .snoc h1 .sentAway, rfl⟩
    | close h => exact ⟨_, .snoc h1 (.close h), rfl⟩
    | readClosed h h' => exact ⟨_, .snoc h1 (.readClosed h h'), rfl⟩
    | readFails h => exact ⟨_, .snoc h1 (.readFails (detail := "") h), rfl⟩
    | @readEvent ev h => exact ⟨_, .snoc h1 (.readEvent (detail := "") (ev := ⟨ev.type, "", ev.data⟩) h), rfl⟩
    | skip h h' => exact ⟨_, .snoc h1 (.skip h h'), rfl⟩
    | send h => exact ⟨_, .snoc h1 (.send h), rfl⟩

end

/-- A client with an HTTP client, which makes a request, reads an event of each sort, and then fails. -/
example : ∃ (c : FullClient) (s : RSt), c.http = some 7 ∧ c.Reach (fun t => "\"" ++ t ++ "\"") {} [] s ∧
    s.effs.tail = [.request .eventsource, .onRead "init" "{}", .log false "init: {}", .onRead "hm" "x", .log false "unknown event type \"hm\"",
      .onRead "trace" "null", .deliver zeroStatic, .onRead "stats" "null", .log false "skips=0 sends=0 drops=0", .log true "error: read server-sent event: gone"] := by
  let c : FullClient := { uri := "http://x".toList, http := some 7 }
  let q : String → String := fun t => "\"" ++ t ++ "\""
  have s0 : c.Reach q {} [] _ := .refl
  have s1 := s0.snoc .request
  have s2 := s1.snoc (.readEvent (detail := "") (ev := ⟨"init", "{}", some (.obj [])⟩) rfl)
  have s3 := s2.snoc (.readEvent (detail := "") (ev := ⟨"hm", "x", none⟩) rfl)
  have s4 := s3.snoc (.readEvent (detail := "") (ev := ⟨"trace", "null", some .null⟩) rfl)
  have s5 := s4.snoc (.send (x := zeroStatic) rfl)
  have s6 := s5.snoc (.readEvent (detail := "") (ev := ⟨"stats", "null", some .null⟩) rfl)
  have s7 := s6.snoc (.readFails (detail := "gone") rfl)
  exact ⟨c, _, rfl, s7, rfl⟩

end Trc.Web.Using
