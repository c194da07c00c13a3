import Verif.Cmd.StreamLog
import Verif.Props.Pipeline
import Verif.Props.SearchLog
import Verif.Props.Boundaries

/-!
# C146: what the log of `trc stream` tells of the program as a whole
-/

namespace Trc.Cmd

open Trc.Web

variable {interval : Int} {n cap : Nat}

/-- A line that `runStreams` writes. -/
def SLine.main : SLine → Bool
  | .started | .stopping | .finished => true
  | _ => false

/-- A line that `writeTraces` writes. -/
def SLine.writer : SLine → Bool
  | .emitted _ => true
  | _ => false

/-- A line about a server. -/
def SLine.server : SLine → Bool
  | .uri _ _ => true
  | _ => false

/-! ## Steps -/

theorem uriLines_self (r : RSt) : uriLines r r = [] := by
  unfold uriLines lineOf
  cases r.pc <;> simp

/-- What a step may do. -/
structure Changes (interval : Int) (n : Nat) (p p' : PSt) : Prop where
  writer : p'.wpc = p.wpc ∨ (p.wpc = .running ∧ p'.wpc = .returned ∧ p'.written = p.written)
  quiet : p.wpc = .returned → p'.written = p.written
  one : p'.written = p.written ∨ p'.written.length = p.written.length + 1
  main : p'.spc = p.spc ∨ (p.spc = .running ∧ p'.spc = .waiting) ∨
    (p.spc = .waiting ∧ p'.spc = .returned ∧ p'.uris = p.uris ∧ ∀ i, i < n → (p.uris i).pc = .returned)
  uris : ∀ i, p'.uris i = p.uris i ∨ RStep interval (p.uris i) (p'.uris i)

theorem changes {p p' : PSt} (h : PStep interval n cap p p') : Changes interval n p p' := by
  have set : ∀ {i u}, RStep interval (p.uris i) u → ∀ j, setUri p.uris i u j = p.uris j ∨ RStep interval (p.uris j) (setUri p.uris i u j) := by
    intro i u hs j
    by_cases hj : j = i
    · subst hj; rw [setUri_same]; exact .inr hs
    · rw [setUri_other _ _ hj]; exact .inl rfl
  cases h with
  | signalled | interruptStreams | interruptWriter => exact ⟨.inl rfl, fun _ => rfl, .inl rfl, .inl rfl, fun _ => .inl rfl⟩
  | stream _ hs => exact ⟨.inl rfl, fun _ => rfl, .inl rfl, .inl rfl, set hs⟩
  | put _ hs => exact ⟨.inl rfl, fun _ => rfl, .inl rfl, .inl rfl, set hs.step⟩
  | hand _ hs _ hw => exact ⟨.inl rfl, fun h => (by rw [hw] at h; cases h), .inr (by simp), .inl rfl, set hs.step⟩
  | receive hw => exact ⟨.inl rfl, fun h => (by rw [hw] at h; cases h), .inr (by simp), .inl rfl, fun _ => .inl rfl⟩
  | writerDone hw => exact ⟨.inr ⟨hw, rfl, rfl⟩, fun _ => rfl, .inl rfl, .inl rfl, fun _ => .inl rfl⟩
  | stopStreams h => exact ⟨.inl rfl, fun _ => rfl, .inl rfl, .inr (.inl ⟨h, rfl⟩), fun _ => .inl rfl⟩
  | streamsDone h ha => exact ⟨.inl rfl, fun _ => rfl, .inl rfl, .inr (.inr ⟨h, rfl, rfl, ha⟩), fun _ => .inl rfl⟩

/-- The lines about the servers in a step. -/
def serverLines (n : Nat) (p p' : PSt) : List SLine := (List.range n).flatMap fun i => (uriLines (p.uris i) (p'.uris i)).map (.uri i)

theorem server_mem {p p' : PSt} {x : SLine} (h : x ∈ serverLines n p p') : ∃ i l, i < n ∧ x = .uri i l ∧ l ∈ uriLines (p.uris i) (p'.uris i) := by
  unfold serverLines at h
  obtain ⟨i, hi, hx⟩ := List.mem_flatMap.mp h
  obtain ⟨l, hl, rfl⟩ := List.mem_map.mp hx
  exact ⟨i, l, List.mem_range.mp hi, rfl, hl⟩

theorem server_filter {p p' : PSt} (f : SLine → Bool) (hf : ∀ i l, f (.uri i l) = false) : (serverLines n p p').filter f = [] := by
  refine List.filter_eq_nil_iff.mpr fun x hx => ?_
  obtain ⟨i, l, -, rfl, -⟩ := server_mem hx
  rw [hf]
  simp

theorem stepLines_eq (count : Nat) (p p' : PSt) : stepLines n count p p' =
    (if p.spc = .running ∧ p'.spc = .waiting then [.stopping] else []) ++
    (if p.spc = .waiting ∧ p'.spc = .returned then [.finished] else []) ++
    (if p.wpc = .running ∧ p'.wpc = .returned then [.emitted count] else []) ++ serverLines n p p' := rfl

theorem reads_done (l : List CSt) : (l.map CSt.done).flatMap (·.read) = l.flatMap (·.read) := by
  rw [List.flatMap_map]
  rfl

/-- Nothing is written about a server whose stream has returned. -/
theorem returned_silent {r r' : RSt} (h : RStep interval r r') (hr : RReach interval r) (hp : r.pc = .returned) : uriLines r r' = [] := by
  obtain ⟨-, hrep, hend⟩ := C83_cleans_up hr hp
  have h1 : lineOf r r' = none := by unfold lineOf; rw [hp]
  have h2 : r'.reads = r.reads := by
    cases h with
    | parentDone => exact reads_done _
    | @client a c c' b hs hc _ =>
      have hm : c ∈ r.streams := by rw [hs]; simp
      obtain ⟨⟨x, hx⟩, -⟩ := hend c hm
      have : c'.read = c.read := by
        cases hc with
        | cancel | sentAway | close => rfl
        | readClosed h | readFails h | readEvent h | skip h | send h => exact absurd h (by rw [hx]; simp)
      simp [RSt.reads, hs, this]
    | spawn | ticker | tickerPanics | reporterDone | exit | stopped | wake | leave => rfl
    | begin h | subctxDone h | failed h => rw [hp] at h; cases h
  unfold uriLines RSt.inits
  rw [h1, h2]
  simp

/-- A stream that is leaving has said so. -/
theorem says_stopped {r r' : RSt} (h : RStep interval r r') (hp : r'.pc = .leaving ∨ r'.pc = .returned) :
    (r.pc = .leaving ∨ r.pc = .returned) ∨ .stopped ∈ uriLines r r' := by
  have : (r.pc = .leaving ∨ r.pc = .returned) ∨ lineOf r r' = some .stopped := by
    cases h with
    | parentDone | client | ticker | reporterDone => exact .inl hp
    | spawn | tickerPanics | begin | subctxDone | failed | wake => rcases hp with hp | hp <;> cases hp
    | exit h => right; simp [lineOf, h]
    | stopped h => right; simp [lineOf, h]
    | leave h => exact .inl (.inl h)
  rcases this with h | h
  · exact .inl h
  · right
    unfold uriLines
    rw [h]
    simp

/-! ## Invariant -/

structure LInv (interval : Int) (n cap : Nat) (s : LSt) : Prop where
  reach : PReach interval n cap s.p
  count : s.count = s.p.written.length % 18446744073709551616
  writer : s.log.filter SLine.writer = if s.p.wpc = .returned then [.emitted s.count] else []
  main : s.log.filter SLine.main = (if s.started then [.started] else []) ++ (if s.p.spc = .running then [] else [.stopping]) ++
    (if s.p.spc = .returned then [.finished] else [])
  order : s.p.spc ≠ .running → s.started = true
  stopped : ∀ i, i < n → (s.p.uris i).pc = .leaving ∨ (s.p.uris i).pc = .returned → .uri i .stopped ∈ s.log
  before : s.p.spc ≠ .returned → .finished ∉ s.log
  after : s.p.spc = .returned → ∃ a b, s.log = a ++ .finished :: b ∧ .finished ∉ a ∧ .finished ∉ b ∧
    (∀ i, i < n → .uri i .stopped ∈ a) ∧ ∀ x ∈ b, x.server = false

theorem linv_init : LInv interval n cap {} :=
  ⟨.refl, rfl, rfl, rfl, by simp, by simp, by simp, by simp⟩

theorem after_append {s : LSt} (hi : LInv interval n cap s) (hr : s.p.spc = .returned) (l : List SLine) (h1 : .finished ∉ l)
    (h2 : ∀ x ∈ l, x.server = false) : ∃ a b, s.log ++ l = a ++ .finished :: b ∧ .finished ∉ a ∧ .finished ∉ b ∧
    (∀ i, i < n → .uri i .stopped ∈ a) ∧ ∀ x ∈ b, x.server = false := by
  obtain ⟨a, b, e, ha, hb, hs, hv⟩ := hi.after hr
  refine ⟨a, b ++ l, by rw [e]; simp, ha, by simp [hb, h1], hs, fun x hx => ?_⟩
  rcases List.mem_append.mp hx with hx | hx
  · exact hv x hx
  · exact h2 x hx

theorem linv_step {s s' : LSt} (h : LStep interval n cap s s') (hi : LInv interval n cap s) : LInv interval n cap s' := by
  cases h with
  | started h =>
    have hrun : s.p.spc = .running := by
      cases hs : s.p.spc with
      | running => rfl
      | _ => have := hi.order (by rw [hs]; simp); rw [h] at this; cases this
    refine ⟨hi.reach, hi.count, ?_, ?_, fun _ => rfl, fun i hn hp => by simp [hi.stopped i hn hp], fun hr => by simp [hi.before hr], fun hr => ?_⟩
    · simp [List.filter_append, hi.writer, SLine.writer]
    · simp [List.filter_append, hi.main, SLine.main, h, hrun]
    · rw [hrun] at hr; cases hr
  | @reports i l hn hrep hl =>
    have hw : SLine.writer (.uri i l) = false := rfl
    have hm : SLine.main (.uri i l) = false := rfl
    refine ⟨hi.reach, hi.count, ?_, ?_, hi.order, fun j hj hp => by simp [hi.stopped j hj hp], fun hr => by simp [hi.before hr], fun hr => ?_⟩
    · simp [List.filter_append, hi.writer, hw]
    · simp [List.filter_append, hi.main, hm]
    · have hp := preach_inv hi.reach
      have := (C83_cleans_up (hp.reach i) (hp.ended hr i hn)).2.1
      rw [hrep] at this
      cases this
  | @goes p' hs hst =>
    have hp := preach_inv hi.reach
    obtain ⟨c1, c2, c3, c4, c5⟩ := changes hs
    have hret : s.p.spc = .returned → serverLines n s.p p' = [] := by
      intro hr
      refine List.eq_nil_iff_forall_not_mem.mpr fun x hx => ?_
      obtain ⟨i, l, hin, rfl, hl⟩ := server_mem hx
      rcases c5 i with e | e
      · rw [e, uriLines_self] at hl; cases hl
      · rw [returned_silent e (hp.reach i) (hp.ended hr i hin)] at hl; cases hl
    have hfs : SLine.finished ∉ serverLines n s.p p' := by
      intro hx
      obtain ⟨_, _, _, e, _⟩ := server_mem hx
      cases e
    refine ⟨.snoc hi.reach hs, ?_, ?_, ?_, ?_, ?_, ?_, ?_⟩
    · rcases c3 with e | e
      · simp only [e, Nat.lt_irrefl, if_false]; exact hi.count
      · simp only [e, Nat.lt_succ_self, if_true, hi.count]; omega
    · simp only [List.filter_append, hi.writer, stepLines_eq, server_filter SLine.writer (fun _ _ => rfl), List.append_nil]
      have f1 : (if s.p.spc = .running ∧ p'.spc = .waiting then [SLine.stopping] else []).filter SLine.writer = [] := by split <;> rfl
      have f2 : (if s.p.spc = .waiting ∧ p'.spc = .returned then [SLine.finished] else []).filter SLine.writer = [] := by split <;> rfl
      rw [f1, f2]
      rcases c1 with e | ⟨e1, e2, e3⟩
      · rw [e]
        cases hw : s.p.wpc with
        | running => simp
        | returned => simp [c2 hw]
      · simp [e1, e2, e3, SLine.writer]
    · simp only [List.filter_append, hi.main, stepLines_eq, server_filter SLine.main (fun _ _ => rfl), List.append_nil]
      have f3 : (if s.p.wpc = .running ∧ p'.wpc = .returned then [SLine.emitted s.count] else []).filter SLine.main = [] := by split <;> rfl
      rw [f3]
      rcases c4 with e | ⟨e1, e2⟩ | ⟨e1, e2, -, -⟩
      · rw [e]
        cases s.p.spc <;> simp
      · simp [e1, e2, SLine.main]
      · simp [e1, e2, SLine.main]
    · intro hr
      rcases c4 with e | ⟨e1, e2⟩ | ⟨e1, e2, -, -⟩
      · exact hi.order (e ▸ hr)
      · exact hst e2
      · exact hi.order (by rw [e1]; simp)
    · intro i hin hpc
      simp only [List.mem_append]
      rcases c5 i with e | e
      · exact .inl (hi.stopped i hin (by simpa only [e] using hpc))
      · rcases says_stopped e hpc with h | h
        · exact .inl (hi.stopped i hin h)
        · right
          rw [stepLines_eq]
          refine List.mem_append_right _ ?_
          exact List.mem_flatMap.mpr ⟨i, List.mem_range.mpr hin, List.mem_map.mpr ⟨_, h, rfl⟩⟩
    · intro hr
      have hr0 : s.p.spc ≠ .returned := by
        intro h0
        rcases c4 with e | ⟨e1, _⟩ | ⟨e1, _⟩
        · exact hr (e.trans h0)
        · rw [h0] at e1; cases e1
        · rw [h0] at e1; cases e1
      have hno : ¬ (s.p.spc = .waiting ∧ p'.spc = .returned) := fun h => hr h.2
      simp only [stepLines_eq, List.mem_append, not_or, if_neg hno]
      refine ⟨hi.before hr0, ⟨⟨?_, by simp⟩, ?_⟩, hfs⟩
      · split <;> simp
      · split <;> simp
    · intro hr
      rcases c4 with e | ⟨e1, e2⟩ | ⟨e1, e2, e3, e4⟩
      · have hr0 : s.p.spc = .returned := e.symm.trans hr
        have := hret hr0
        refine after_append hi hr0 _ ?_ ?_
        · rw [stepLines_eq, this, hr0]
          simp only [reduceCtorEq, false_and, if_false, List.nil_append, List.append_nil]
          split <;> simp
        · rw [stepLines_eq, this, hr0]
          simp only [reduceCtorEq, false_and, if_false, List.nil_append, List.append_nil]
          intro x hx
          split at hx
          · rw [List.mem_singleton.mp hx]; rfl
          · cases hx
      · have : p'.spc = .returned := hr
        rw [this] at e2; cases e2
      · have hsv : serverLines n s.p p' = [] := by
          refine List.eq_nil_iff_forall_not_mem.mpr fun x hx => ?_
          obtain ⟨i, l, hin, rfl, hl⟩ := server_mem hx
          rw [e3, uriLines_self] at hl; cases hl
        have hb := hi.before (by rw [e1]; simp)
        refine ⟨s.log, if s.p.wpc = .running ∧ p'.wpc = .returned then [.emitted s.count] else [], ?_, hb, ?_, fun i hin => hi.stopped i hin (.inr (e4 i hin)), ?_⟩
        · simp [stepLines_eq, hsv, e1, e2]
        · split <;> simp
        · intro x hx
          split at hx
          · rw [List.mem_singleton.mp hx]; rfl
          · cases hx

theorem lreach_inv {s : LSt} (h : LReach interval n cap s) : LInv interval n cap s := by
  induction h with
  | refl => exact linv_init
  | snoc _ h ih => exact linv_step h ih

/-! ## Theorems -/

/-- **C146** The count at the end is the number of the traces that were printed: it is written once, after the last trace. -/
theorem C146_count {s : LSt} (h : LReach interval n cap s) (hfew : s.p.written.length < 18446744073709551616) :
    (∀ k, .emitted k ∈ s.log → k = s.p.written.length) ∧
    (s.p.over → ∃ a b, s.log = a ++ .emitted s.p.written.length :: b ∧ (∀ k, .emitted k ∉ a) ∧ ∀ k, .emitted k ∉ b) := by
  have hi := lreach_inv h
  have hc : s.count = s.p.written.length := by rw [hi.count]; exact Nat.mod_eq_of_lt hfew
  have hw := hi.writer
  rw [hc] at hw
  constructor
  · intro k hk
    have : SLine.emitted k ∈ s.log.filter SLine.writer := List.mem_filter.mpr ⟨hk, rfl⟩
    rw [hw] at this
    split at this
    · have := List.mem_singleton.mp this
      exact SLine.emitted.inj this
    · cases this
  · intro ho
    rw [if_pos ho.2.2] at hw
    have hm : SLine.emitted s.p.written.length ∈ s.log := (List.mem_filter.mp (hw ▸ List.mem_singleton_self _ : _ ∈ s.log.filter SLine.writer)).1
    obtain ⟨a, b, e⟩ := List.append_of_mem hm
    have hl := congrArg List.length hw
    rw [e, List.filter_append, List.length_append, List.filter_cons_of_pos rfl, List.length_cons, List.length_singleton] at hl
    refine ⟨a, b, e, fun k hk => ?_, fun k hk => ?_⟩
    · have := List.length_pos_of_mem (List.mem_filter.mpr ⟨hk, rfl⟩ : _ ∈ a.filter SLine.writer)
      omega
    · have := List.length_pos_of_mem (List.mem_filter.mpr ⟨hk, rfl⟩ : _ ∈ b.filter SLine.writer)
      omega

/-- **C146** Once the streams are said to be finished, every server has been said to be stopped, and nothing is written about any of
them any more. -/
theorem C146_finished {s : LSt} (h : LReach interval n cap s) (a b : List SLine) (e : s.log = a ++ .finished :: b) :
    (∀ i, i < n → .uri i .stopped ∈ a) ∧ (∀ i l, .uri i l ∉ b) ∧ .started ∈ a ∧ .stopping ∈ a := by
  have hi := lreach_inv h
  have hr : s.p.spc = .returned := by
    cases hs : s.p.spc with
    | returned => rfl
    | _ => exact absurd (by rw [e]; simp) (hi.before (by rw [hs]; simp))
  obtain ⟨a', b', e', ha, hb, h1, h2⟩ := hi.after hr
  have hmain := hi.main
  rw [hr, hi.order (by rw [hr]; simp)] at hmain
  have hu : a = a' ∧ b = b' := by
    rw [e] at e'
    clear hmain h1 h2 e hi h hr
    induction a generalizing a' with
    | nil =>
      cases a' with
      | nil => exact ⟨rfl, (List.cons.inj e').2⟩
      | cons x a' => exact absurd ((List.cons.inj e').1 ▸ List.mem_cons_self) ha
    | cons x a ih =>
      cases a' with
      | nil =>
        have := (List.cons.inj e').2
        exact absurd (this ▸ by simp) hb
      | cons y a' =>
        obtain ⟨rfl, e2⟩ := List.cons.inj e'
        obtain ⟨rfl, rfl⟩ := ih a' e2 (fun h => ha (List.mem_cons_of_mem _ h))
        exact ⟨rfl, rfl⟩
  obtain ⟨rfl, rfl⟩ := hu
  refine ⟨h1, fun i l hx => absurd (h2 _ hx) (by simp [SLine.server]), ?_⟩
  rw [e, List.filter_append, List.filter_cons_of_pos (by rfl)] at hmain
  simp only [if_true, reduceCtorEq, if_false, List.cons_append, List.nil_append] at hmain
  have ha0 : a.filter SLine.main = [.started, .stopping] := by
    have hf : SLine.finished ∉ a.filter SLine.main := fun h => ha (List.mem_filter.mp h).1
    generalize a.filter SLine.main = m at hmain hf
    cases m with
    | nil => cases hmain
    | cons x m =>
      cases m with
      | nil => exact absurd (List.cons.inj (List.cons.inj hmain).2).1 (by simp)
      | cons y m =>
        cases m with
        | nil => simp only [List.cons_append, List.nil_append, List.cons.injEq] at hmain; rw [hmain.1, hmain.2.1]
        | cons z m =>
          simp only [List.cons_append, List.cons.injEq] at hmain
          exact absurd (by rw [hmain.2.2.1]; simp) hf
  have g1 : SLine.started ∈ a.filter SLine.main := by rw [ha0]; simp
  have g2 : SLine.stopping ∈ a.filter SLine.main := by rw [ha0]; simp
  exact ⟨(List.mem_filter.mp g1).1, (List.mem_filter.mp g2).1⟩

theorem stream_duration (c : StreamConfig) (hd : ∀ d, c.filter.minDuration = some d → Is64 d) :
    ∀ d, (c.filter.streamFilter c.streamEvents).minDuration = some d → Is64 d := by
  intro d h
  refine hd d ?_
  rw [← h]
  unfold FilterFlags.streamFilter FilterFlags.filter
  cases c.streamEvents <;> rfl

theorem force_range (d : Int) : 1000000000 ≤ forceInterval d 10000000000 1000000000 60000000000 ∧
    forceInterval d 10000000000 1000000000 60000000000 ≤ 60000000000 := by
  unfold forceInterval
  split
  · omega
  · split
    · omega
    · split <;> omega

theorem force_same (d : Int) : d = forceInterval d 10000000000 1000000000 60000000000 ↔ 1000000000 ≤ d ∧ d ≤ 60000000000 := by
  constructor
  · intro h
    rw [h]
    exact force_range d
  · intro h
    unfold forceInterval
    rw [if_neg (by omega), if_neg (by omega), if_neg (by omega)]

/-- **C146** The filter that is told is the one that the servers read from the requests. -/
theorem C146_filter {mulFrac : Nat → Nat → Nat → Nat} (hm : ExactMul mulFrac) (c : StreamConfig) (uri : String) (raw : Bytes) (hraw : NoFilter raw)
    (hd : ∀ d, c.filter.minDuration = some d → Is64 d) :
    c.infoLines = ["streaming: " ++ (if c.streamEvents then "events" else "traces"),
      "filter: " ++ (parseFilter mulFrac (c.asks uri raw)).string showDuration] := by
  have hf := stream_duration c hd
  have := (C72_server_partial hm (c.client uri) _ raw hraw hf).2.2
  unfold StreamConfig.asks StreamConfig.infoLines
  rw [this]
  rfl

/-- **C146, exactly** The send buffer and the interval for statistics that are told are those that the servers read from the requests exactly if
they are in the ranges of the client. -/
theorem C146_settings_exact {mulFrac : Nat → Nat → Nat → Nat} (hm : ExactMul mulFrac) (c : StreamConfig) (uri : String) (raw : Bytes) (hraw : NoFilter raw)
    (hs : vals (bytesOf "sendbuf") (parseQuery raw) = []) (hd : ∀ d, c.filter.minDuration = some d → Is64 d) (h64 : Fits64 c.statsInterval) :
    (about "send buffer: " c.debugLines = ["send buffer: " ++ toString (sendbufOfURL (c.asks uri raw))] ↔ 1 ≤ c.sendBuf ∧ c.sendBuf ≤ 100000) ∧
    (about "stats interval: " c.debugLines = ["stats interval: " ++ showDuration (statsOfURL mulFrac (c.asks uri raw))] ↔
      1000000000 ≤ c.statsInterval ∧ c.statsInterval ≤ 60000000000) := by
  have hf := stream_duration c hd
  obtain ⟨h1, h2, -⟩ := C72_server_partial hm (c.client uri) _ raw hraw hf
  have l1 : about "send buffer: " c.debugLines = ["send buffer: " ++ toString c.sendBuf] := by
    simp only [about, StreamConfig.debugLines, List.filter_cons, String.toList_append, showInt_toString]
    rfl
  have l2 : about "stats interval: " c.debugLines = ["stats interval: " ++ showDuration c.statsInterval] := by
    simp only [about, StreamConfig.debugLines, List.filter_cons, String.toList_append, showInt_toString]
    rfl
  constructor
  · rw [l1]
    simp only [List.cons.injEq, and_true, String.append_right_inj]
    have hb : (c.client uri).initialize.sendBuffer = if c.sendBuf < 0 then 0 else if c.sendBuf > 100000 then 100000 else c.sendBuf := rfl
    by_cases h0 : c.sendBuf ≤ 0
    · have := (C72_zero_buffer_always_violated hm (c.client uri) _ raw hraw hf h0 hs).2
      unfold StreamConfig.asks
      rw [this]
      refine iff_of_false (fun e => ?_) (by omega)
      have := toString_int_inj e
      omega
    · have hne : (c.client uri).initialize.sendBuffer ≠ 0 := by
        rw [hb, if_neg (by omega)]
        split <;> omega
      unfold StreamConfig.asks
      rw [h1 hne, hb, if_neg (by omega)]
      constructor
      · intro e
        have := toString_int_inj e
        split at this <;> omega
      · rintro ⟨-, h⟩
        rw [if_neg (by omega)]
  · rw [l2]
    simp only [List.cons.injEq, and_true, String.append_right_inj]
    unfold StreamConfig.asks
    rw [h2]
    have hb : (c.client uri).initialize.statsInterval = forceInterval c.statsInterval 10000000000 1000000000 60000000000 := rfl
    rw [hb]
    obtain ⟨r1, r2⟩ := force_range c.statsInterval
    have hin : Fits64 (forceInterval c.statsInterval 10000000000 1000000000 60000000000) :=
      ⟨Int.le_trans (by decide) r1, Int.lt_of_le_of_lt r2 (by decide)⟩
    refine Iff.trans ⟨fun e => ?_, fun e => ?_⟩ (force_same c.statsInterval)
    · exact durationString_inj h64 hin (String.ofList_injective e)
    · exact congrArg showDuration e

/-- **C146 fails for send buffers** that are not in the range: what is told is never what the servers use. -/
theorem C146_buffer_always_violated {mulFrac : Nat → Nat → Nat → Nat} (hm : ExactMul mulFrac) (c : StreamConfig) (uri : String) (raw : Bytes) (hraw : NoFilter raw)
    (hs : vals (bytesOf "sendbuf") (parseQuery raw) = []) (hd : ∀ d, c.filter.minDuration = some d → Is64 d)
    (h : c.sendBuf ≤ 0 ∨ 100000 < c.sendBuf) :
    ("send buffer: " ++ toString c.sendBuf) ∈ c.debugLines ∧ sendbufOfURL (c.asks uri raw) ≠ c.sendBuf := by
  have hf := stream_duration c hd
  refine ⟨by simp [StreamConfig.debugLines, showInt_toString], ?_⟩
  unfold StreamConfig.asks
  rcases h with h | h
  · rw [(C72_zero_buffer_always_violated hm (c.client uri) _ raw hraw hf h hs).2]
    omega
  · have hb : (c.client uri).initialize.sendBuffer = 100000 := by
      show (if c.sendBuf < 0 then 0 else if c.sendBuf > 100000 then 100000 else c.sendBuf) = 100000
      rw [if_neg (by omega), if_pos (by omega)]
    rw [(C72_server_partial hm (c.client uri) _ raw hraw hf).1 (by rw [hb]; decide), hb]
    omega

/-! ## Example -/

theorem LSteps.trans {s s' s'' : LSt} (h : LSteps interval n cap s s') (h' : LSteps interval n cap s' s'') : LSteps interval n cap s s'' := by
  induction h' with
  | refl => exact h
  | snoc _ st ih => exact .snoc ih st

theorem lifted {p p' : PSt} (h : PSteps interval n cap p p') : ∀ s : LSt, s.p = p → s.started = true →
    ∃ s', LSteps interval n cap s s' ∧ s'.p = p' ∧ s'.started = true := by
  induction h with
  | refl => intro s h1 h2; exact ⟨s, .refl, h1, h2⟩
  | snoc _ st ih =>
    intro s h1 h2
    obtain ⟨s1, h3, rfl, h5⟩ := ih s h1 h2
    exact ⟨_, .snoc h3 (.goes st fun _ => h5), rfl, h5⟩

/-- A run with two servers and two traces, of which one is printed before a signal ends it. -/
example : ∃ s a b, LReach 1 2 1 s ∧ s.p.over ∧ s.p.written.length = 1 ∧ .emitted 1 ∈ s.log ∧ s.log = a ++ .finished :: b := by
  obtain ⟨p, h1, _, h2, _⟩ := Example.run
  obtain ⟨p', h3, h4, h5⟩ := C94_can_end (PSteps.snoc h1 .signalled) (by omega) rfl
  obtain ⟨s, h6, rfl, -⟩ := lifted (PSteps.trans (.snoc h1 .signalled) h3) { started := true, log := [.started] } rfl rfl
  have hr : LReach 1 2 1 s := LSteps.trans (.snoc .refl (.started rfl)) h6
  have hl : s.p.written.length = 1 := by rw [h5, h2]; rfl
  obtain ⟨x, y, e, -⟩ := (C146_count hr (by omega)).2 h4
  obtain ⟨a, b, e', -⟩ := (lreach_inv hr).after h4.2.1
  exact ⟨s, a, b, hr, h4, hl, by rw [e, hl]; simp, e'⟩

/-- The settings of the hypotheses: the defaults, and a buffer of zero. -/
example : NoFilter (bytesOf "") ∧ vals (bytesOf "sendbuf") (parseQuery (bytesOf "")) = [] ∧ Fits64 ({} : StreamConfig).statsInterval ∧
    sendbufOfURL (({ sendBuf := 0 } : StreamConfig).asks "http://a" (bytesOf "")) = 100 ∧
    ({ sendBuf := 0 } : StreamConfig).debugLines = ["send buffer: 0", "recv buffer: 100", "stats interval: 10s", "retry interval: 1s", "starting streams"] := by
  refine ⟨?_, by decide +kernel, by unfold Fits64; decide, by decide +kernel, by decide +kernel⟩
  intro k _
  rfl

end Trc.Cmd
