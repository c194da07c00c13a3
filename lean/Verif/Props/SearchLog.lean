import Verif.Cmd.SearchLog
import Verif.Props.RequestText
import Verif.Props.Uris
import Verif.Props.CmdSearch
import Verif.Props.LogLines

/-!
# C145: the debug log of `trc search` tells what is asked and what is printed
-/

namespace Trc.Cmd

open Trc.Web Wrap

theorem digitChar_std (v : Nat) (h : v < 10) : Trc.Web.digitChar v = Nat.digitChar v :=
  (by decide : ∀ v < 10, Trc.Web.digitChar v = Nat.digitChar v) v h

theorem fmtInt_toDigits (v : Nat) : fmtInt v = Nat.toDigits 10 v := by
  induction v using Nat.strongRecOn with
  | _ v ih =>
    unfold fmtInt
    split
    · rw [Nat.toDigits_of_lt_base ‹_›, digitChar_std _ ‹_›]
    · rw [ih (v / 10) (by omega), digitChar_std _ (by omega), Nat.toDigits_of_base_le (n := v) (by omega) (by omega)]

theorem showInt_toString (n : Int) : showInt n = toString n := by
  unfold showInt itoa
  rw [fmtInt_toDigits]
  cases n with
  | ofNat n => rfl
  | negSucc n =>
    rw [if_pos (Int.negSucc_lt_zero n)]
    show String.ofList ('-' :: Nat.toDigits 10 (n + 1)) = "-" ++ String.ofList (Nat.toDigits 10 (n + 1))
    rw [String.ofList_cons]
    rfl

theorem toString_int_inj {a b : Int} (h : toString a = toString b) : a = b := by
  rw [← showInt_toString, ← showInt_toString] at h
  exact itoa_inj (String.ofList_injective h)

theorem join_intercalate (l : List String) : join " " l = " ".intercalate l := by
  induction l with
  | nil => rfl
  | cons x l ih =>
    cases l with
    | nil => simp [join, String.intercalate_singleton]
    | cons y l => rw [join, ih, String.intercalate_cons_cons]

/-- The lines that begin with the text. -/
def about (start : String) (lines : List String) : List String := lines.filter fun s => start.toList.isPrefixOf s.toList

variable (net : Net) (internet : String → Remote) (arrive : List String → List String) (compile : Compile) (srt : List Static → List Static)

/-- What is printed is what `searchCommand` prints, which C100 and others are about. -/
theorem logged_same (c : SearchFlags) (took : Duration) (uriPath : String) (given : List String) :
    (searchCommandLogged net internet arrive compile srt c took uriPath given).2 = searchCommand net internet arrive compile srt c uriPath given := by
  unfold searchCommandLogged searchCommand
  cases net.prepare uriPath given with
  | error e => rfl
  | ok uris =>
    show Except.ok _ = Except.ok _
    congr 1
    unfold searchExecLogged searchExec
    cases c.request.normalize compile with
    | none => rfl
    | some p =>
      simp only [Option.bind_eq_bind, Option.bind_some]
      cases multiSearch compile srt c.request 0 0 _ with
      | none => rfl
      | some res => rfl

/-- What has happened if something is printed. -/
theorem logged_inv {c : SearchFlags} {took : Duration} {uriPath : String} {given : List String} {p : Printed}
    (h : searchCommand net internet arrive compile srt c uriPath given = .ok (some p)) :
    ∃ asked req problems res, net.prepare uriPath given = .ok asked ∧ c.request.normalize compile = some (req, problems) ∧
      multiSearch compile srt c.request 0 0 (((arrive asked).map internet).map (·.arrival req)) = some res ∧
      p = { request := if c.includeRequest then some req else none
            sources := res.sources, totalCount := res.totalCount, matchCount := res.matchCount, traces := res.traces
            stats := if c.includeStats then res.stats else none
            problems := res.problems } ∧
      (searchCommandLogged net internet arrive compile srt c took uriPath given).1 =
        net.uriLines uriPath (uniqueList given) ++ c.filter.durationLines ++ (c.requestLines ++ responseLines res took ++ c.removalLines) := by
  rw [← logged_same (took := took)] at h
  unfold searchCommandLogged at h ⊢
  cases hp : net.prepare uriPath given with
  | error e => rw [hp] at h; cases h
  | ok asked =>
    rw [hp] at h
    simp only [Except.ok.injEq] at h ⊢
    unfold searchExecLogged at h ⊢
    cases hn : c.request.normalize compile with
    | none => rw [hn] at h; cases h
    | some q =>
      obtain ⟨req, problems⟩ := q
      rw [hn] at h
      simp only at h ⊢
      cases hm : multiSearch compile srt c.request 0 0 (((arrive asked).map internet).map (·.arrival req)) with
      | none => rw [hm] at h; cases h
      | some res =>
        rw [hm] at h
        exact ⟨asked, req, problems, res, rfl, rfl, hm, (Option.some.inj h).symm, rfl⟩

theorem uriLines_start (uriPath : String) (l : List String) : ∀ x ∈ net.uriLines uriPath l, ∃ y, x = "URI: " ++ y := by
  induction l with
  | nil => intro x hx; cases hx
  | cons s r ih =>
    intro x hx
    unfold Net.uriLines at hx
    split at hx
    · cases hx
    · rcases List.mem_append.mp hx with hx | hx
      · split at hx
        · cases hx
        · exact ⟨_, List.mem_singleton.mp hx⟩
      · exact ih x hx

theorem about_all {start : String} {l : List String} (h : ∀ x ∈ l, ∃ y, x = start ++ y) : about start l = l := by
  refine List.filter_eq_self.mpr fun x hx => ?_
  obtain ⟨y, rfl⟩ := h x hx
  rw [String.toList_append]
  simp

theorem about_none {start other : String} {l : List String} (hn : ∀ r, start.toList.isPrefixOf (other.toList ++ r) = false)
    (h : ∀ x ∈ l, ∃ y, x = other ++ y) : about start l = [] := by
  refine List.filter_eq_nil_iff.mpr fun x hx => ?_
  obtain ⟨y, rfl⟩ := h x hx
  rw [String.toList_append, hn]
  simp

theorem duration_start (c : FilterFlags) : ∀ x ∈ c.durationLines, ∃ y, x = "using --duration " ++ y := by
  intro x hx
  unfold FilterFlags.durationLines at hx
  split at hx
  · exact ⟨_, List.mem_singleton.mp hx⟩
  · cases hx

theorem request_start (c : SearchFlags) : ∀ x ∈ c.requestLines, ∃ y, x = "request: " ++ y := by
  intro x hx
  simp only [SearchFlags.requestLines, List.mem_cons, List.not_mem_nil, or_false] at hx
  rcases hx with rfl | rfl | rfl
  · rw [show ("request: filter: " : String) = "request: " ++ "filter: " from rfl, String.append_assoc]; exact ⟨_, rfl⟩
  · rw [show ("request: limit: " : String) = "request: " ++ "limit: " from rfl, String.append_assoc]; exact ⟨_, rfl⟩
  · rw [show ("request: stack depth: " : String) = "request: " ++ "stack depth: " from rfl, String.append_assoc]; exact ⟨_, rfl⟩

theorem response_start (res : Response) (took : Duration) : ∀ x ∈ responseLines res took, ∃ y, x = "response: " ++ y := by
  intro x hx
  simp only [responseLines, List.mem_cons, List.not_mem_nil, or_false] at hx
  rcases hx with rfl | rfl | rfl | rfl | rfl
  · rw [show ("response: sources: " : String) = "response: " ++ "sources: " from rfl]; simp only [String.append_assoc]; exact ⟨_, rfl⟩
  · rw [show ("response: total: " : String) = "response: " ++ "total: " from rfl, String.append_assoc]; exact ⟨_, rfl⟩
  · rw [show ("response: matched: " : String) = "response: " ++ "matched: " from rfl, String.append_assoc]; exact ⟨_, rfl⟩
  · rw [show ("response: returned: " : String) = "response: " ++ "returned: " from rfl, String.append_assoc]; exact ⟨_, rfl⟩
  · rw [show ("response: duration: " : String) = "response: " ++ "duration: " from rfl, String.append_assoc]; exact ⟨_, rfl⟩

theorem removal_start (c : SearchFlags) : ∀ x ∈ c.removalLines, ∃ y, x = "removing " ++ y := by
  intro x hx
  unfold SearchFlags.removalLines at hx
  rcases List.mem_append.mp hx with hx | hx <;> split at hx
  · cases hx
  · exact ⟨"request from response", List.mem_singleton.mp hx⟩
  · cases hx
  · exact ⟨"stats from response", List.mem_singleton.mp hx⟩

theorem about_append (start : String) (l m : List String) : about start (l ++ m) = about start l ++ about start m := List.filter_append ..

/-- **C145** The lines about the response have the sources, the total, the number of matching traces and the number of traces that are
printed; and the request and the statistics are said to be removed exactly if they are not printed. -/
theorem C145_answer (c : SearchFlags) (took : Duration) (uriPath : String) (given : List String) (p : Printed)
    (h : searchCommand net internet arrive compile srt c uriPath given = .ok (some p)) :
    let lines := (searchCommandLogged net internet arrive compile srt c took uriPath given).1
    about "response: " lines =
      ["response: sources: " ++ toString p.sources.length ++ " (" ++ " ".intercalate p.sources ++ ")",
        "response: total: " ++ toString p.totalCount, "response: matched: " ++ toString p.matchCount,
        "response: returned: " ++ toString p.traces.length, "response: duration: " ++ showDuration took] ∧
    about "removing " lines =
      (if p.request = none then ["removing request from response"] else []) ++
      (if p.stats.isNone then ["removing stats from response"] else []) := by
  obtain ⟨asked, req, problems, res, hp, hn, hm, rfl, hl⟩ := logged_inv net internet arrive compile srt (took := took) h
  have hst : res.stats.isSome := by
    unfold multiSearch at hm
    simp only [Option.bind_eq_bind, Option.bind_eq_some_iff, Option.pure_def, Option.some.injEq] at hm
    obtain ⟨_, _, _, _, _, _, _, _, rfl⟩ := hm
    rfl
  simp only
  rw [hl]
  simp only [about_append]
  constructor
  · rw [about_none (other := "URI: ") (by intro r; rfl) (uriLines_start net uriPath _),
      about_none (other := "using --duration ") (by intro r; rfl) (duration_start _),
      about_none (other := "request: ") (by intro r; rfl) (request_start _), about_all (response_start _ _),
      about_none (other := "removing ") (by intro r; rfl) (removal_start _)]
    simp only [List.nil_append, List.append_nil, responseLines, showInt_toString, join_intercalate]
    rfl
  · rw [about_none (other := "URI: ") (by intro r; rfl) (uriLines_start net uriPath _),
      about_none (other := "using --duration ") (by intro r; rfl) (duration_start _),
      about_none (other := "request: ") (by intro r; rfl) (request_start _),
      about_none (other := "response: ") (by intro r; rfl) (response_start _ _), about_all (removal_start _)]
    simp only [List.nil_append, SearchFlags.removalLines]
    cases c.includeRequest <;> cases c.includeStats <;> cases hs : res.stats <;> simp_all

theorem join_snoc (x : String) (l : List String) (h : l ≠ []) : join " " (l ++ [x]) = join " " l ++ (" " ++ x) := by
  induction l with
  | nil => exact absurd rfl h
  | cons y l ih =>
    cases l with
    | nil => simp [join, String.append_assoc]
    | cons z l =>
      have := ih (by simp)
      simp only [List.cons_append, join] at this ⊢
      rw [this]
      simp only [String.append_assoc]

/-- A filter and the same without its query print differently. -/
theorem query_shows (f : Filter) (h : f.query ≠ "") : f.string showDuration ≠ ({ f with query := "" } : Filter).string showDuration := by
  have e : f.elems showDuration = ({ f with query := "" } : Filter).elems showDuration ++ ["Query='" ++ f.query ++ "'"] := by
    simp [Filter.elems, h]
  intro heq
  by_cases h0 : ({ f with query := "" } : Filter).elems showDuration = []
  · have h1 : ({ f with query := "" } : Filter).string showDuration = "(allow all)" := by simp [Filter.string, h0]
    rw [h1] at heq
    exact (C34_allow_all_iff showDuration f).mp heq (by simp [Filter.HasCondition, h])
  · have l0 := List.length_pos_iff.mpr h0
    have h1 : ({ f with query := "" } : Filter).string showDuration = join " " (({ f with query := "" } : Filter).elems showDuration) := by
      unfold Filter.string
      rw [if_neg (by omega)]
    have h2 : f.string showDuration = join " " (f.elems showDuration) := by
      unfold Filter.string
      rw [if_neg (by rw [e, List.length_append]; omega)]
    rw [h1, h2, e, join_snoc _ _ h0] at heq
    have := congrArg String.length heq
    simp only [String.length_append] at this
    have : (" " : String).length = 1 := rfl
    omega

/-- **C145, exactly** With the request printed as well, the lines about it are those of the printed request exactly if the limit is one that
is not changed, and the query, if there is one, is valid. -/
theorem C145_asked_exact (c : SearchFlags) (took : Duration) (uriPath : String) (given : List String) (p : Printed) (hi : c.includeRequest = true)
    (h : searchCommand net internet arrive compile srt c uriPath given = .ok (some p)) :
    ∃ req, p.request = some req ∧
      (about "request: " (searchCommandLogged net internet arrive compile srt c took uriPath given).1 =
        ["request: filter: " ++ req.filter.string showDuration, "request: limit: " ++ toString req.limit,
          "request: stack depth: " ++ toString req.stackDepth] ↔
      (1 ≤ c.limit ∧ c.limit ≤ 250) ∧ (c.filter.query = "" ∨ ∃ re, compile c.filter.query = .ok re)) := by
  obtain ⟨asked, req, problems, res, hp, hn, hm, rfl, hl⟩ := logged_inv net internet arrive compile srt (took := took) h
  refine ⟨req, by simp [hi], ?_⟩
  rw [hl]
  simp only [about_append]
  rw [about_none (other := "URI: ") (by intro r; rfl) (uriLines_start net uriPath _),
    about_none (other := "using --duration ") (by intro r; rfl) (duration_start _), about_all (request_start _),
    about_none (other := "response: ") (by intro r; rfl) (response_start _ _),
    about_none (other := "removing ") (by intro r; rfl) (removal_start _)]
  simp only [List.nil_append, List.append_nil, SearchFlags.requestLines, showInt_toString, List.cons.injEq, and_true, String.append_right_inj]
  obtain ⟨b, hb⟩ := normalizeBucketing_some c.request.bucketing
  unfold SearchRequest.normalize at hn
  rw [hb] at hn
  simp only [Option.bind_eq_bind, Option.bind_some, Option.pure_def, Option.some.injEq, Prod.mk.injEq] at hn
  obtain ⟨rfl, -⟩ := hn
  have hlim : (toString c.limit = toString (normalizeLimit c.limit)) ↔ 1 ≤ c.limit ∧ c.limit ≤ 250 := by
    constructor
    · intro h
      have := toString_int_inj h
      unfold normalizeLimit searchLimitDefault searchLimitMin searchLimitMax at this
      split at this
      · omega
      · split at this
        · omega
        · split at this <;> omega
    · rintro ⟨h1, h2⟩
      congr 1
      unfold normalizeLimit searchLimitDefault searchLimitMin searchLimitMax
      rw [if_neg (by omega), if_neg (by omega), if_neg (by omega)]
  have hfil : (c.filter.filter.string showDuration = (c.filter.filter.normalize compile).1.string showDuration) ↔
      (c.filter.query = "" ∨ ∃ re, compile c.filter.query = .ok re) := by
    by_cases hq : c.filter.query = ""
    · have : (c.filter.filter.normalize compile).1 = c.filter.filter := by
        simp [Filter.normalize, Filter.initializeQueryRegexp, FilterFlags.filter, hq]
      rw [this]
      simp [hq]
    · cases hc : compile c.filter.query with
      | ok re =>
        have : (c.filter.filter.normalize compile).1 = { c.filter.filter with regexp := some re } := by
          simp [Filter.normalize, Filter.initializeQueryRegexp, FilterFlags.filter, hq, hc]
        rw [this]
        simp only [hq, false_or, Except.ok.injEq, exists_eq', iff_true]
        rfl
      | error e =>
        have : (c.filter.filter.normalize compile).1 = { c.filter.filter with query := "" } := by
          simp [Filter.normalize, Filter.initializeQueryRegexp, FilterFlags.filter, hq, hc]
        rw [this]
        refine iff_of_false (query_shows _ hq) ?_
        simp [hq]
  constructor
  · rintro ⟨h1, h2, -⟩
    exact ⟨hlim.mp h2, hfil.mp h1⟩
  · rintro ⟨h1, h2⟩
    exact ⟨hfil.mpr h2, hlim.mpr h1, rfl⟩

/-- **C145 fails for limits** that are changed: another limit is told than the one that is printed, and asked for. -/
theorem C145_limit_violated (c : SearchFlags) (took : Duration) (uriPath : String) (given : List String) (p : Printed) (hi : c.includeRequest = true)
    (h : searchCommand net internet arrive compile srt c uriPath given = .ok (some p)) (hl : c.limit < 1 ∨ 250 < c.limit) :
    ∃ req, p.request = some req ∧ 1 ≤ req.limit ∧ req.limit ≤ 250 ∧
      ("request: limit: " ++ toString c.limit) ∈ (searchCommandLogged net internet arrive compile srt c took uriPath given).1 := by
  obtain ⟨asked, req, problems, res, hp, hn, hm, rfl, hlog⟩ := logged_inv net internet arrive compile srt (took := took) h
  refine ⟨req, by simp [hi], ?_, ?_, ?_⟩
  · unfold SearchRequest.normalize at hn
    simp only [Option.bind_eq_bind, Option.bind_eq_some_iff, Option.pure_def, Option.some.injEq, Prod.mk.injEq] at hn
    obtain ⟨b, -, rfl, -⟩ := hn
    show 1 ≤ normalizeLimit _
    unfold normalizeLimit searchLimitDefault searchLimitMin searchLimitMax
    split
    · omega
    · split
      · omega
      · split <;> omega
  · unfold SearchRequest.normalize at hn
    simp only [Option.bind_eq_bind, Option.bind_eq_some_iff, Option.pure_def, Option.some.injEq, Prod.mk.injEq] at hn
    obtain ⟨b, -, rfl, -⟩ := hn
    show normalizeLimit _ ≤ 250
    unfold normalizeLimit searchLimitDefault searchLimitMin searchLimitMax
    split
    · omega
    · split
      · omega
      · split <;> omega
  · rw [hlog]
    simp [SearchFlags.requestLines, showInt_toString]

/-- **C145, exactly** The lines about the servers are those that are asked exactly if no name is blank. -/
theorem C145_servers_exact (c : SearchFlags) (took : Duration) (uriPath : String) (given asked : List String)
    (h : net.prepare uriPath given = .ok asked) :
    about "URI: " (searchCommandLogged net internet arrive compile srt c took uriPath given).1 = asked.map ("URI: " ++ ·) ↔
      ∀ s ∈ given, trimSpace s ≠ "" := by
  have hlines : about "URI: " (searchCommandLogged net internet arrive compile srt c took uriPath given).1 =
      net.uriLines uriPath (uniqueList given) := by
    have rest : ∀ uris, about "URI: " (searchExecLogged compile srt c took uris).1 = [] := by
      intro uris
      unfold searchExecLogged
      split
      · exact about_none (other := "request: ") (by intro r; rfl) (request_start _)
      · split
        · exact about_none (other := "request: ") (by intro r; rfl) (request_start _)
        · simp only [about_append]
          rw [about_none (other := "request: ") (by intro r; rfl) (request_start _),
            about_none (other := "response: ") (by intro r; rfl) (response_start _ _),
            about_none (other := "removing ") (by intro r; rfl) (removal_start _)]
          rfl
    unfold searchCommandLogged
    rw [h]
    simp only [about_append]
    rw [about_all (uriLines_start net uriPath _), about_none (other := "using --duration ") (by intro r; rfl) (duration_start _), rest]
    simp
  rw [hlines]
  have hmem := (unique_spec given).2
  unfold Net.prepare at h
  split at h
  · cases h
  rw [targets_ok] at h
  rw [show (∀ s ∈ given, trimSpace s ≠ "") ↔ ∀ s ∈ uniqueList given, trimSpace s ≠ "" by simp only [hmem]]
  generalize uniqueList given = l at h
  clear hlines hmem
  have short : ∀ (l : List String), (net.uriLines uriPath l).length ≤ l.length := by
    intro l
    induction l with
    | nil => exact Nat.le_refl _
    | cons s r ih =>
      unfold Net.uriLines
      split
      · simp
      · split <;> simp <;> omega
  induction l generalizing asked with
  | nil =>
    cases asked with
    | nil => simp [Net.uriLines]
    | cons => simp at h
  | cons s r ih =>
    cases asked with
    | nil => simp at h
    | cons t ts =>
      simp only [List.map_cons, List.cons.injEq] at h
      have := ih ts h.2
      unfold Net.uriLines
      rw [h.1]
      simp only [List.map_cons, List.forall_mem_cons]
      by_cases hs : trimSpace s = ""
      · rw [if_pos hs, List.nil_append]
        refine iff_of_false ?_ (fun h => h.1 hs)
        intro heq
        have h1 := congrArg List.length heq
        have h2 := congrArg List.length h.2
        have h3 := short r
        simp at h1 h2
        omega
      · rw [if_neg hs]
        simp [hs, this]

/-- **C145** The lines are written at the levels for that, each marked, and at no others. -/
theorem C145_levels (lines : List String) (hl : ∀ x ∈ lines, ¬ ∃ y, x = y ++ "\n") :
    (∀ level ∈ ["debug", "d", "trace", "t"], debugOutput level lines = some (String.join (lines.map fun x => "[DEBUG] " ++ x ++ "\n"))) ∧
    (∀ level ∈ ["info", "i", "none", "n"], debugOutput level lines = some "") := by
  have out : loggerOutput (lines.map fun t => ("[DEBUG] ", t)) = String.join (lines.map fun x => "[DEBUG] " ++ x ++ "\n") := by
    induction lines with
    | nil => rfl
    | cons x l ih =>
      simp only [List.map_cons, loggerOutput, String.join_cons]
      rw [ih fun y hy => hl y (List.mem_cons_of_mem _ hy)]
      congr 1
      unfold loggerRecord
      split
      · rename_i r hr
        exfalso
        rw [String.toList_append, List.reverse_append] at hr
        cases hx : x.toList.reverse with
        | nil => rw [hx] at hr; exact absurd hr (by simp)
        | cons z zs =>
          rw [hx] at hr
          obtain ⟨rfl, -⟩ := List.cons.inj hr
          refine hl x List.mem_cons_self ⟨String.ofList zs.reverse, ?_⟩
          rw [← String.ofList_toList (s := x), ← List.reverse_reverse x.toList, hx]
          simp [String.ofList_append]
      · rfl
  constructor
  · intro level h
    simp only [List.mem_cons, List.not_mem_nil, or_false] at h
    rcases h with rfl | rfl | rfl | rfl <;> exact congrArg some out
  · intro level h
    simp only [List.mem_cons, List.not_mem_nil, or_false] at h
    rcases h with rfl | rfl | rfl | rfl <;> rfl

/-! ## Example -/

namespace SearchLogged

private def noRegexp : Compile := fun _ => .error "no"
private def json : List Char → Option String := fun l => if l = "application/json".toList then some "application/json" else none

private def flags (limit : Int) : SearchFlags :=
  { filter := { isFinished := true, minDuration := some 1500000000, query := "(" }, limit, includeRequest := true }

/-- `trc search --log debug -f -d 1.5s -q '(' -n 1000 --include-request -u up -u " " -u down`: one server is up, one is down, a name is
blank.  The log tells of a limit that is not asked for, of a query that is ignored, and of two of the three servers. -/
example : ∃ (rb : Ring.RB Static) (outs : List (List Static)) (p : Printed) (req : SearchRequest),
    Ring.exec 10 [.add (sampleTrace "a" 1 false false 0), .add (sampleTrace "b" 2 true false 2000000000)] = some (rb, outs) ∧
    let up : Remote := { uri := "up", server := handleSearch noRegexp (fun _ _ _ => 0) (fun _ => 0) json (fun _ => true) (collectorSearcher noRegexp sortNewest "s" still [rb] 5) }
    let run := searchCommandLogged anyNet (fun u => if u = "http://up" then up else { uri := u, server := fun _ => none }) id noRegexp sortNewest (flags 1000)
      2500000 "" ["up", " ", "down"]
    anyNet.prepare "" ["up", " ", "down"] = .ok ["http://up", " ", "http://down"] ∧
    run.2 = .ok (some p) ∧ p.request = some req ∧ req.limit = 250 ∧ req.filter.query = "" ∧
    run.1 = ["URI: http://up", "URI: http://down", "using --duration 1.5s", "request: filter: IsFinished MinDuration=1.5s Query='('",
      "request: limit: 1000", "request: stack depth: -1", "response: sources: 1 (s)", "response: total: 2", "response: matched: 1",
      "response: returned: 1", "response: duration: 2.5ms", "removing stats from response"] ∧
    (∀ x ∈ run.1, ¬ ∃ y, x = y ++ "\n") := by
  refine ⟨_, _, _, _, rfl, ?_, rfl, rfl, ?_, ?_, ?_, ?_⟩
  · decide +kernel
  · decide +kernel
  · decide +kernel
  · decide +kernel
  · rw [show (searchCommandLogged anyNet _ id noRegexp sortNewest (flags 1000) 2500000 "" ["up", " ", "down"]).1 = ["URI: http://up", "URI: http://down", "using --duration 1.5s", "request: filter: IsFinished MinDuration=1.5s Query='('",
      "request: limit: 1000", "request: stack depth: -1", "response: sources: 1 (s)", "response: total: 2", "response: matched: 1",
      "response: returned: 1", "response: duration: 2.5ms", "removing stats from response"] by decide +kernel]
    intro x hx ⟨y, hy⟩
    have h1 : x.toList.getLast? = some '\n' := by rw [hy, String.toList_append]; simp
    have : ∀ x ∈ ["URI: http://up", "URI: http://down", "using --duration 1.5s", "request: filter: IsFinished MinDuration=1.5s Query='('",
      "request: limit: 1000", "request: stack depth: -1", "response: sources: 1 (s)", "response: total: 2", "response: matched: 1",
      "response: returned: 1", "response: duration: 2.5ms", "removing stats from response"], x.toList.getLast? ≠ some '\n' := by decide +kernel
    exact this x hx h1

end SearchLogged

end Trc.Cmd
