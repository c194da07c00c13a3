import Mathlib.Data.List.Induction
import Verif.Web.ServerFields

/-!
# A trace server put together from its fields (C107)
-/

namespace Trc.Web.Fields

/-! ## Specification -/

/-- The statements of one goroutine. -/
def ofThread (t : Nat) (l : List (Nat × Stage)) : List Stage := (l.filter fun p => p.1 = t).map (·.2)

/-- The goroutine `t` serves these requests, one after the other; the last one may be under way. -/
def Serves (t : Nat) (kinds : List Kind) (l : List (Nat × Stage)) : Prop := ofThread t l <+: kinds.flatMap serveHTTP

/-- What the documentation of the fields says is used: the field, or the collector if it is not provided. -/
def Server.uses (s : Server) (stream : Bool) : Impl :=
  match if stream then s.streamer else s.searcher with
  | some i => i
  | none => .coll s.collector

/-- What is to come of a request. -/
def Server.expected (s : Server) : Kind → Option Outcome
  | .search => some (.served false (s.uses false))
  | .stream => some (.served true (s.uses true))
  | .refused => none

/-- What comes of the requests that a goroutine serves. -/
def outcomes (t : Nat) (os : List (Nat × Outcome)) : List Outcome := (os.filter fun p => p.1 = t).map (·.2)

/-- It is there. -/
def Impl.there : Impl → Bool
  | .coll none => false
  | _ => true

/-- Two goroutines access the same location, and one of them writes. -/
def Conflict (x y : Acc) : Prop := x.t ≠ y.t ∧ x.l = y.l ∧ (x.write = true ∨ y.write = true)

/-! ## Lemmas -/

/-- What the server has become after some statements. -/
def Became (s0 s : Server) : Prop :=
  s.collector = s0.collector ∧ (s.searcher = s0.searcher ∨ s.searcher = some (s0.uses false)) ∧
    (s.streamer = s0.streamer ∨ s.streamer = some (s0.uses true))

theorem became_exec {s0 s : Server} (h : Became s0 s) (t : Nat) (st : Stage) : Became s0 (exec s t st).1 := by
  obtain ⟨h1, h2, h3⟩ := h
  cases st with
  | initSearcher =>
    simp only [exec]
    split
    · next hn =>
      refine ⟨h1, .inr ?_, h3⟩
      rcases h2 with h2 | h2
      · rw [hn] at h2
        simp [Server.uses, ← h2, h1]
      · rw [hn] at h2; cases h2
    · exact ⟨h1, h2, h3⟩
  | initStreamer =>
    simp only [exec]
    split
    · next hn =>
      refine ⟨h1, h2, .inr ?_⟩
      rcases h3 with h3 | h3
      · rw [hn] at h3
        simp [Server.uses, ← h3, h1]
      · rw [hn] at h3; cases h3
    · exact ⟨h1, h2, h3⟩
  | search => exact ⟨h1, h2, h3⟩
  | stream => exact ⟨h1, h2, h3⟩

theorem became_of_some {s0 s : Server} (h : Became s0 s) :
    (s.searcher ≠ none → s.searcher = some (s0.uses false)) ∧ (s.streamer ≠ none → s.streamer = some (s0.uses true)) := by
  obtain ⟨h1, h2, h3⟩ := h
  constructor
  · intro hn
    rcases h2 with h2 | h2
    · rw [h2] at hn ⊢
      cases hs : s0.searcher with
      | none => exact absurd hs hn
      | some i => simp [Server.uses, hs]
    · exact h2
  · intro hn
    rcases h3 with h3 | h3
    · rw [h3] at hn ⊢
      cases hs : s0.streamer with
      | none => exact absurd hs hn
      | some i => simp [Server.uses, hs]
    · exact h3

theorem run_append (s : Server) (l l' : List (Nat × Stage)) :
    run s (l ++ l') = ((run (run s l).1 l').1, (run s l).2.1 ++ (run (run s l).1 l').2.1, (run s l).2.2 ++ (run (run s l).1 l').2.2) := by
  induction l generalizing s with
  | nil => simp [run]
  | cons p l ih =>
    obtain ⟨t, st⟩ := p
    simp only [List.cons_append, run, ih, List.append_assoc]

theorem became_run {s0 s : Server} (h : Became s0 s) (l : List (Nat × Stage)) : Became s0 (run s l).1 := by
  induction l generalizing s with
  | nil => exact h
  | cons p l ih => exact ih (became_exec h p.1 p.2)

/-- A field that has been initialized stays so. -/
theorem stays (s : Server) (l : List (Nat × Stage)) :
    (s.searcher ≠ none → (run s l).1.searcher ≠ none) ∧ (s.streamer ≠ none → (run s l).1.streamer ≠ none) := by
  induction l generalizing s with
  | nil => exact ⟨id, id⟩
  | cons p l ih =>
    obtain ⟨t, st⟩ := p
    obtain ⟨h1, h2⟩ := ih (exec s t st).1
    refine ⟨fun h => h1 ?_, fun h => h2 ?_⟩ <;>
    · cases st <;> simp only [exec]
      · split <;> simp_all
      · split <;> simp_all
      · exact h
      · exact h

/-- What has been done by a goroutine has had its effect. -/
theorem done_init (s : Server) (l : List (Nat × Stage)) (t : Nat) :
    ((t, .initSearcher) ∈ l → (run s l).1.searcher ≠ none) ∧ ((t, .initStreamer) ∈ l → (run s l).1.streamer ≠ none) := by
  constructor
  · intro h
    obtain ⟨a, b, rfl⟩ := List.append_of_mem h
    rw [run_append]
    show (run (exec (run s a).1 t .initSearcher).1 b).1.searcher ≠ none
    refine (stays _ b).1 ?_
    simp only [exec]
    split <;> simp_all
  · intro h
    obtain ⟨a, b, rfl⟩ := List.append_of_mem h
    rw [run_append]
    show (run (exec (run s a).1 t .initStreamer).1 b).1.streamer ≠ none
    refine (stays _ b).2 ?_
    simp only [exec]
    split <;> simp_all

/-- A request begins with the initialization. -/
theorem before_use (kinds : List Kind) (st : Stage) (hst : st = .search ∨ st = .stream) :
    ∀ pre, pre ++ [st] <+: kinds.flatMap serveHTTP → Stage.initSearcher ∈ pre ∧ Stage.initStreamer ∈ pre := by
  intro pre h
  cases kinds with
  | nil => simp at h
  | cons k ks =>
    obtain ⟨r, hr⟩ := h
    have hk : ∃ m, (k :: ks).flatMap serveHTTP = .initSearcher :: .initStreamer :: m := by
      cases k <;> exact ⟨_, rfl⟩
    obtain ⟨m, hm⟩ := hk
    rw [hm] at hr
    match pre, hr with
    | [], hr =>
      simp at hr
      rcases hst with rfl | rfl <;> cases hr.1
    | [a], hr =>
      simp at hr
      rcases hst with rfl | rfl <;> cases hr.2.1
    | a :: b :: pre, hr =>
      simp at hr
      simp [hr.1, hr.2.1]

theorem ofThread_append (t : Nat) (a b : List (Nat × Stage)) : ofThread t (a ++ b) = ofThread t a ++ ofThread t b := by
  simp [ofThread]

theorem mem_ofThread {t : Nat} {st : Stage} {l : List (Nat × Stage)} (h : st ∈ ofThread t l) : (t, st) ∈ l := by
  simp only [ofThread, List.mem_map, List.mem_filter, decide_eq_true_eq] at h
  obtain ⟨⟨a, b⟩, ⟨h1, h2⟩, h3⟩ := h
  simp only at h2 h3
  subst h2 h3
  exact h1

/-- When a request is handed on, the fields are initialized. -/
theorem at_use (s0 : Server) (a : List (Nat × Stage)) (t : Nat) (st : Stage) (hst : st = .search ∨ st = .stream)
    (kinds : List Kind) (hk : Serves t kinds (a ++ [(t, st)])) :
    (run s0 a).1.searcher = some (s0.uses false) ∧ (run s0 a).1.streamer = some (s0.uses true) := by
  have hpre : ofThread t a ++ [st] <+: kinds.flatMap serveHTTP := by
    refine List.IsPrefix.trans ?_ hk
    rw [ofThread_append]
    have : ofThread t [(t, st)] = [st] := by simp [ofThread]
    rw [this]
    exact List.prefix_rfl
  obtain ⟨h1, h2⟩ := before_use kinds st hst _ hpre
  have hb := became_of_some (became_run (s0 := s0) (s := s0) ⟨rfl, .inl rfl, .inl rfl⟩ a)
  exact ⟨hb.1 ((done_init s0 a t).1 (mem_ofThread h1)), hb.2 ((done_init s0 a t).2 (mem_ofThread h2))⟩

theorem callOn_there {stream : Bool} {i : Impl} (h : i.there = true) : callOn stream (some i) = .served stream i := by
  cases i with
  | user n => rfl
  | coll c => cases c with
    | none => cases h
    | some c => rfl

/-- What comes of a statement. -/
def outcomeOf (s : Server) : Stage → Option Outcome
  | .search => some (.served false (s.uses false))
  | .stream => some (.served true (s.uses true))
  | _ => none

theorem outcomes_append (t : Nat) (a b : List (Nat × Outcome)) : outcomes t (a ++ b) = outcomes t a ++ outcomes t b := by
  simp [outcomes]

theorem outcomes_run (s : Server) (h1 : (s.uses false).there = true) (h2 : (s.uses true).there = true) (t : Nat) (kinds : List Kind)
    (l : List (Nat × Stage)) (hs : Serves t kinds l) :
    outcomes t (run s l).2.2 = (ofThread t l).filterMap (outcomeOf s) := by
  induction l using List.reverseRecOn with
  | nil => rfl
  | append_singleton a p ih =>
    obtain ⟨t', st⟩ := p
    have hs' : Serves t kinds a := List.IsPrefix.trans (by rw [ofThread_append]; exact List.prefix_append _ _) hs
    have hrun : (run s (a ++ [(t', st)])).2.2 = (run s a).2.2 ++ (exec (run s a).1 t' st).2.2.map (fun o => (t', o)) := by
      rw [run_append]; simp [run]
    rw [hrun, outcomes_append, ih hs', ofThread_append, List.filterMap_append]
    congr 1
    by_cases ht : t' = t
    · subst ht
      have e1 : outcomes t' ((exec (run s a).1 t' st).2.2.map (fun o => (t', o))) = (exec (run s a).1 t' st).2.2 := by
        simp [outcomes, List.filter_map, Function.comp_def]
      have e2 : ofThread t' [(t', st)] = [st] := by simp [ofThread]
      rw [e1, e2]
      cases st with
      | initSearcher => simp only [exec]; split <;> rfl
      | initStreamer => simp only [exec]; split <;> rfl
      | search => simp [exec, (at_use s a t' .search (.inl rfl) kinds hs).1, callOn_there h1, outcomeOf]
      | stream => simp [exec, (at_use s a t' .stream (.inr rfl) kinds hs).2, callOn_there h2, outcomeOf]
    · have e1 : outcomes t ((exec (run s a).1 t' st).2.2.map (fun o => (t', o))) = [] := by
        simp [outcomes, List.filter_map, Function.comp_def, ht]
      have e2 : ofThread t [(t', st)] = [] := by simp [ofThread, ht]
      rw [e1, e2]; rfl

theorem expected_eq (s : Server) (kinds : List Kind) :
    (kinds.flatMap serveHTTP).filterMap (outcomeOf s) = kinds.filterMap s.expected := by
  induction kinds with
  | nil => rfl
  | cons k ks ih =>
    rw [List.flatMap_cons, List.filterMap_append, ih]
    cases k <;> rfl

theorem no_write {s : Server} (h1 : s.searcher ≠ none) (h2 : s.streamer ≠ none) (l : List (Nat × Stage)) :
    (run s l).1 = s ∧ ∀ x ∈ (run s l).2.1, x.write = false := by
  induction l with
  | nil => simp [run]
  | cons p l ih =>
    obtain ⟨t, st⟩ := p
    have he : (exec s t st).1 = s ∧ ∀ x ∈ (exec s t st).2.1, x.write = false := by
      cases st <;> simp only [exec]
      · split
        · contradiction
        · simp
      · split
        · contradiction
        · simp
      · simp
      · simp
    obtain ⟨e1, e2⟩ := he
    simp only [run, e1]
    refine ⟨ih.1, ?_⟩
    intro x hx
    rcases List.mem_append.1 hx with hx | hx
    · exact e2 x hx
    · exact ih.2 x hx

/-! ## Theorems -/

/-- **C107** Each request is handed to what the documentation says, however the requests are interleaved: of the requests
that a goroutine serves, those that have come to an end have come to what is expected, in order.  (Partial: if what is to be
used is there; see `C107_crash_violated`.) -/
theorem C107_uses_partial (s : Server) (h1 : (s.uses false).there = true) (h2 : (s.uses true).there = true)
    (l : List (Nat × Stage)) (t : Nat) (kinds : List Kind) (hs : Serves t kinds l) :
    outcomes t (run s l).2.2 <+: kinds.filterMap s.expected ∧
    (ofThread t l = kinds.flatMap serveHTTP → outcomes t (run s l).2.2 = kinds.filterMap s.expected) := by
  rw [outcomes_run s h1 h2 t kinds l hs, ← expected_eq]
  exact ⟨List.IsPrefix.filterMap _ hs, fun h => by rw [h]⟩

/-- **C107** The requests do not race.  (Partial: if both fields are set from the start; see `C107_race_violated`.) -/
theorem C107_no_race_partial (s : Server) (h1 : s.searcher ≠ none) (h2 : s.streamer ≠ none) (l : List (Nat × Stage)) :
    ∀ x ∈ (run s l).2.1, ∀ y ∈ (run s l).2.1, ¬ Conflict x y := by
  intro x hx y hy ⟨_, _, hc⟩
  have h := (no_write h1 h2 l).2
  rw [h x hx, h y hy] at hc
  rcases hc with hc | hc <;> cases hc

/-- **C107** `NewTraceServer` sets both fields, to the collector. -/
theorem C107_new (c : Nat) :
    (newTraceServer (some c)).searcher = some (.coll (some c)) ∧ (newTraceServer (some c)).streamer = some (.coll (some c)) ∧
    (∀ stream, (newTraceServer (some c)).uses stream = .coll (some c)) ∧ (newTraceServer (some c)).collector = some c :=
  ⟨rfl, rfl, fun stream => by cases stream <;> rfl, rfl⟩

/-- **C107** is violated: a server with a field left to its default, as in `&TraceServer{Collector: c}` or in the example
`&TraceServer{Collector: c, Searcher: s}`, and two requests at the same time: one writes the field, the
other reads it, and nothing orders them. -/
theorem C107_race_violated (s : Server) (h : s.searcher = none ∨ s.streamer = none) (k k' : Kind) :
    ∃ l, ofThread 0 l = serveHTTP k ∧ ofThread 1 l = serveHTTP k' ∧
      ∃ x ∈ (run s l).2.1, ∃ y ∈ (run s l).2.1, Conflict x y := by
  let l : List (Nat × Stage) := (serveHTTP k).map (fun st => (0, st)) ++ (serveHTTP k').map (fun st => (1, st))
  have e0 : ofThread 0 l = serveHTTP k := by cases k <;> cases k' <;> rfl
  have e1 : ofThread 1 l = serveHTTP k' := by cases k <;> cases k' <;> rfl
  refine ⟨l, e0, e1, ?_⟩
  · obtain ⟨c, sr, st⟩ := s
    rcases h with h | h
    · simp only at h
      subst h
      refine ⟨⟨0, true, .searcher⟩, ?_, ⟨1, false, .searcher⟩, ?_, by decide, rfl, .inl rfl⟩ <;>
        cases st <;> cases k <;> cases k' <;> simp [l, serveHTTP, initFields, run, exec]
    · simp only at h
      subst h
      refine ⟨⟨0, true, .streamer⟩, ?_, ⟨1, false, .streamer⟩, ?_, by decide, rfl, .inl rfl⟩ <;>
        cases sr <;> cases k <;> cases k' <;> simp [l, serveHTTP, initFields, run, exec]

/-- **C107** is violated: a server that is given a searcher and no more serves searches, but a single request for a stream
ends the program. -/
theorem C107_crash_violated (n : Nat) :
    (run { searcher := some (.user n) } ((serveHTTP .search).map fun st => (0, st))).2.2 = [(0, .served false (.user n))] ∧
    (run { searcher := some (.user n) } ((serveHTTP .stream).map fun st => (0, st))).2.2 = [(0, .crash)] :=
  ⟨rfl, rfl⟩

/-! ## Cases -/

example : (newTraceServer (some 3)).searcher ≠ none ∧ (newTraceServer (some 3)).streamer ≠ none := by decide
example : (({ collector := some 3, searcher := some (.user 1) } : Server).uses false).there = true ∧
    (({ collector := some 3, searcher := some (.user 1) } : Server).uses true).there = true := by decide
example : Serves 0 [.search, .refused] [(0, .initSearcher), (1, .initSearcher), (0, .initStreamer), (0, .search), (1, .initStreamer),
    (1, .stream), (0, .initSearcher)] := ⟨_, rfl⟩
example : (run { collector := some 3, searcher := some (.user 1) }
    [(0, .initSearcher), (1, .initSearcher), (0, .initStreamer), (0, .search), (1, .initStreamer), (1, .stream)]).2.2 =
    [(0, .served false (.user 1)), (1, .served true (.coll (some 3)))] := by decide

end Trc.Web.Fields
