import Verif.Cmd.Main
import Verif.Props.Uris

/-!
# What `trc` says by its exit status (C109)
-/

namespace Trc.Cmd

open Trc.Web

/-! ## Specification -/

/-- The arguments are in order: the level is one of those listed in the help, and there are URIs, all of them valid. -/
def Parsed.Valid (net : Net) (p : Parsed) : Prop :=
  p.logLevel ∈ logLevels ∧ p.uris ≠ [] ∧ ∀ s ∈ p.uris, ∃ t, net.target p.uriPath s = .ok t

/-- A server that does not answer. -/
def Remote.down (r : Remote) : Prop := ∀ x, r.server x = none

/-! ## Lemmas -/

theorem logging_some {l : String} (h : l ∈ logLevels) : ∃ x, logging l = some x := by
  simp only [logLevels, List.mem_cons, List.not_mem_nil, or_false] at h
  rcases h with rfl | rfl | rfl | rfl | rfl | rfl | rfl | rfl <;> exact ⟨_, rfl⟩

theorem setUp_valid {net : Net} {p : Parsed} (h : p.Valid net) :
    ∃ uris, net.prepare p.uriPath p.uris = .ok uris ∧ setUp net (.ok p) = .ok (p.command, uris) := by
  obtain ⟨h1, h2, h3⟩ := h
  obtain ⟨x, hx⟩ := logging_some h1
  obtain ⟨ts, ht, -⟩ := prepare_ok net p.uriPath p.uris h2 h3
  exact ⟨ts, ht, by simp [setUp, hx, ht]⟩

/-! ## Theorems -/

/-- **C109** Asked for help, `trc` prints help, and exits with status 0. -/
theorem C109_help (net : Net) (search stream : List String → Ran) (msg : String) :
    program net search stream (.error { kind := .help, msg }) = { help := true, error := none, status := 0 } := by
  rfl

/-- **C109** Misused, with arguments that the ff package refuses, without a URI or with one that is not valid, it prints help and what is
wrong, exits with status 1, and has run no command. -/
theorem C109_misuse (net : Net) (search stream : List String → Ran) (parse : Except Err Parsed)
    (h : (∃ msg, parse = .error { msg }) ∨
      ∃ p, parse = .ok p ∧ (p.logLevel ∉ logLevels ∨ p.uris = [] ∨ ∃ s ∈ p.uris, ∃ e, net.target p.uriPath s = .error e)) :
    ∃ msg, program net search stream parse = { help := true, error := some msg, status := 1 } := by
  have key : ∃ msg, setUp net parse = .error { msg } := by
    rcases h with ⟨msg, rfl⟩ | ⟨p, rfl, h⟩
    · exact ⟨msg, rfl⟩
    · by_cases hl : p.logLevel ∈ logLevels
      · obtain ⟨x, hx⟩ := logging_some hl
        have hp : ∃ e, net.prepare p.uriPath p.uris = .error e := by
          rcases h with h | h | ⟨s, hs, he⟩
          · exact absurd hl h
          · unfold Net.prepare; rw [h]; exact ⟨_, rfl⟩
          · obtain ⟨e, he⟩ := (targets_error net p.uriPath (uniqueList p.uris)).mpr ⟨s, ((unique_spec p.uris).2 s).mpr hs, he⟩
            unfold Net.prepare
            split
            · exact ⟨_, rfl⟩
            · exact ⟨e, he⟩
        obtain ⟨e, he⟩ := hp
        exact ⟨e, by simp [setUp, hx, he]⟩
      · have : logging p.logLevel = none := by
          unfold logging
          split <;> first | rfl | (exfalso; simp_all [logLevels])
        exact ⟨"invalid log level " ++ p.logLevel, by simp only [setUp, this]⟩
  obtain ⟨msg, hm⟩ := key
  exact ⟨msg, by simp [program, hm, afterwards, exitStatus]⟩

/-- **C109** Otherwise the command is run with the URIs given, help is not printed, and the exit status is 0 if it returns no error, or one that
says that it was interrupted or cancelled; else it is 1 and the error is printed.  (A command's error is never one of the ff package's; a
panic is status 2.) -/
theorem C109_runs (net : Net) (search stream : List String → Ran) (p : Parsed) (h : p.Valid net) (hc : p.command ≠ .none)
    (hk : ∀ uris e, (search uris = some (some e) ∨ stream uris = some (some e)) → e.kind ≠ .help ∧ e.kind ≠ .noExec) :
    ∃ uris, net.prepare p.uriPath p.uris = .ok uris ∧
      let exec := if p.command = .search then search uris else stream uris
      let x := program net search stream (.ok p)
      x.ran = some (p.command, uris) ∧ x.help = false ∧
      (x.status = 0 ↔ exec = some none ∨ ∃ e, exec = some (some e) ∧ (e.kind = .canceled ∨ e.kind = .signal)) ∧
      (x.status = 1 ↔ ∃ e, exec = some (some e) ∧ e.kind = .other) ∧
      (x.status = 2 ↔ exec = none) ∧
      (∀ msg, x.error = some msg ↔ ∃ e, exec = some (some e) ∧ e.kind = .other ∧ e.msg = msg) := by
  obtain ⟨uris, h1, h2⟩ := setUp_valid h
  refine ⟨uris, h1, ?_⟩
  have hr : runCommand search stream uris p.command = if p.command = .search then search uris else stream uris := by
    cases hp : p.command with
    | none => exact absurd hp hc
    | search => simp [runCommand]
    | stream => simp [runCommand]
  have hk' : ∀ e, runCommand search stream uris p.command = some (some e) → e.kind ≠ .help ∧ e.kind ≠ .noExec := by
    intro e he
    refine hk uris e ?_
    rw [hr] at he
    split at he
    · exact .inl he
    · exact .inr he
  simp only [← hr]
  simp only [program, h2, hc, if_false]
  cases hx : runCommand search stream uris p.command with
  | none => simp
  | some o =>
    cases o with
    | none => simp [afterwards, exitStatus]
    | some e =>
      obtain ⟨g1, g2⟩ := hk' e hx
      obtain ⟨k, m⟩ := e
      simp only at g1 g2
      cases k <;> simp [afterwards, exitStatus] at g1 g2 ⊢

/-- **C109** Every level listed in the help works, the short names are those of the long ones, and each shows what the ones before it show. -/
theorem C109_levels :
    (∀ l ∈ logLevels, ∃ x, logging l = some x) ∧
    logging "n" = logging "none" ∧ logging "i" = logging "info" ∧ logging "d" = logging "debug" ∧ logging "t" = logging "trace" ∧
    [logging "none", logging "info", logging "debug", logging "trace"] =
      [some (false, false, false), some (true, false, false), some (true, true, false), some (true, true, true)] :=
  ⟨fun _ h => logging_some h, rfl, rfl, rfl, rfl, rfl⟩

/-- **C109** `trc search` exits with status 0 if it could print its result.  (Partial: whether the servers have answered does not matter; see
`C109_failed_violated`.) -/
theorem C109_search_partial (net : Net) (stream : List String → Ran) (write : Printed → Option String) (found : List String → Option Printed)
    (p : Parsed) (h : p.Valid net) (hc : p.command = .search) :
    ∃ uris, net.prepare p.uriPath p.uris = .ok uris ∧ ∀ out, found uris = some out →
      ((program net (fun u => searchRan write (found u)) stream (.ok p)).status = 0 ↔ write out = none) := by
  obtain ⟨uris, h1, h2⟩ := setUp_valid h
  refine ⟨uris, h1, fun out ho => ?_⟩
  simp only [program, h2, hc, runCommand, searchRan, ho]
  cases hw : write out with
  | none => simp [afterwards, exitStatus, hw]
  | some e => simp [afterwards, exitStatus, hw]

/-- **C109** is violated: if none of the servers answers, `trc search` finds nothing, which it says in the problems that it prints, and
exits with status 0. -/
theorem C109_failed_violated (net : Net) (internet : String → Remote) (hd : ∀ u, (internet u).down) (compile : Compile)
    (srt : List Static → List Static) (hs : Sorts srt) (c : SearchFlags) (stream : List String → Ran) (p : Parsed) (h : p.Valid net)
    (hc : p.command = .search) :
    (program net (fun u => searchRan (fun _ => none) (searchExec compile srt c (u.map internet))) stream (.ok p)).status = 0 ∧
    ∃ uris out, net.prepare p.uriPath p.uris = .ok uris ∧ searchExec compile srt c (uris.map internet) = some out ∧
      out.traces = [] ∧ out.totalCount = 0 ∧ out.problems ≠ [] := by
  obtain ⟨uris, h1, h2⟩ := setUp_valid h
  have hdown : ∀ u req, ((internet u).arrival req).res = none ∧ ((internet u).arrival req).err = some "execute HTTP request" := by
    intro u req
    unfold Remote.arrival searchClient
    rw [hd u]
    exact ⟨rfl, rfl⟩
  obtain ⟨req, problems, hn, -⟩ := C47_returns_partial compile srt c.request (by intro re h; cases h) (by intro d h; cases h) 0 0 []
  have hres : ∀ t ∈ (uris.map internet).map (·.arrival req), t.res = none := by
    intro t ht
    simp only [List.map_map, List.mem_map, Function.comp] at ht
    obtain ⟨u, -, rfl⟩ := ht
    exact (hdown u req).1
  obtain ⟨req', problems', hn', hex⟩ := C47_returns_partial compile srt c.request (by intro re h; cases h) (by intro d h; cases h) 0 0
    ((uris.map internet).map (·.arrival req))
  obtain ⟨r, hr⟩ := hex (fun t ht x hx => by rw [hres t ht] at hx; cases hx)
  have hempty : responses ((uris.map internet).map (·.arrival req)) = [] := by
    unfold responses
    rw [List.filterMap_eq_nil_iff]
    exact hres
  have hne : uris ≠ [] := by
    obtain ⟨ts, ht, hm⟩ := prepare_ok net p.uriPath p.uris h.2.1 h.2.2
    rw [h1] at ht
    cases ht
    intro e
    subst e
    obtain ⟨s, l, hsl⟩ := List.exists_cons_of_ne_nil h.2.1
    have := ((unique_spec p.uris).2 s).mpr (by rw [hsl]; simp)
    simp only [List.map_nil, List.map_eq_nil_iff] at hm
    rw [hm] at this
    cases this
  have hout : searchExec compile srt c (uris.map internet) = some
      { request := if c.includeRequest then some req else none
        sources := r.sources, totalCount := r.totalCount, matchCount := r.matchCount, traces := r.traces
        stats := if c.includeStats then r.stats else none, problems := r.problems } := by
    unfold searchExec
    rw [hn]
    simp only [Option.bind_eq_bind, Option.bind_some, hr]
    rfl
  have ha := C44_aggregates hr
  rw [hempty] at ha
  have hb := C45_most_recent hs hr (by rw [hempty]; exact ⟨fun _ h => (by cases h), fun _ h => (by cases h), fun _ h => (by cases h)⟩)
  rw [hempty] at hb
  refine ⟨?_, uris, _, h1, hout, ?_, ha.1, ?_⟩
  · simp only [program, h2, hc, runCommand, searchRan, hout]
    rfl
  · obtain ⟨-, -, rest, h3, -⟩ := hb
    have := h3.eq_nil
    simp only [List.append_eq_nil_iff] at this
    exact this.1
  · obtain ⟨u, l, rfl⟩ := List.exists_cons_of_ne_nil hne
    have := ha.2.2.2.2.2.1 ((internet u).arrival req) (by simp) _ (hdown u req).2
    intro e
    simp only at e
    rw [e] at this
    rcases this with h | h
    · cases h
    · exact absurd (hdown u req).1 h.1

/-- **C109** is violated: a command that does not exist, or none, is not an error if there is a URI: `trc -u foo serach` prints help, runs
nothing, and exits with status 0. -/
theorem C109_no_command_violated (net : Net) (search stream : List String → Ran) (p : Parsed) (h : p.Valid net) (hc : p.command = .none) :
    program net search stream (.ok p) = { help := true, error := none, status := 0 } := by
  obtain ⟨uris, h1, h2⟩ := setUp_valid h
  simp only [program, h2, hc, runCommand]
  rfl

/-! ## Cases -/

theorem valid_case (c : Command) : Parsed.Valid anyNet { command := c, logLevel := "d", uris := ["foo:80", "bar"] } := by
  refine ⟨by simp [logLevels], by simp, ?_⟩
  intro s hs
  simp only [List.mem_cons, List.not_mem_nil, or_false] at hs
  rcases hs with rfl | rfl
  · exact ⟨"http://foo:80", (by decide +kernel : anyNet.target "" "foo:80" = .ok "http://foo:80")⟩
  · exact ⟨"http://bar", (by decide +kernel : anyNet.target "" "bar" = .ok "http://bar")⟩

example : (program anyNet (fun _ => some none) (fun _ => some (some { kind := .signal, msg := "received signal interrupt" }))
    (.ok { command := .stream, logLevel := "t", uris := ["foo"] })) =
    { ran := some (.stream, ["http://foo"]), help := false, error := none, status := 0 } := by decide +kernel

example : (program anyNet (fun _ => some (some { msg := "marshal response: no space left on device" })) (fun _ => none)
    (.ok { command := .search, uris := ["foo"] })) =
    { ran := some (.search, ["http://foo"]), help := false, error := some "marshal response: no space left on device", status := 1 } := by
  decide +kernel

example : (program anyNet (fun _ => some none) (fun _ => some none) (.ok { command := .search })) =
    { help := true, error := some "at least one URI is required", status := 1 } := by decide +kernel

example : Remote.down { uri := "foo", server := fun _ => none } := fun _ => rfl

end Trc.Cmd
