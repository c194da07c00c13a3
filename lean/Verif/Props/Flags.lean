import Verif.Cmd.Flags
import Verif.Props.Pipeline

/-!
# C132: `trc stream` and the values of its flags
-/

namespace Trc.Cmd

open Trc.Web

theorem makeChan_some {limit cap : Nat} {n : Int} (h : makeChan limit n = some cap) : 0 ≤ n ∧ n ≤ limit ∧ cap = n.toNat := by
  unfold makeChan at h
  split at h
  · cases h
  · exact ⟨by omega, by omega, (Option.some.inj h).symm⟩

theorem makeChan_eq {limit : Nat} {n : Int} (h : 0 ≤ n) (h' : n ≤ limit) : makeChan limit n = some n.toNat := by
  unfold makeChan
  rw [if_neg (by omega)]

/-- The reporter of a stream whose interval is not positive never gets to its loop. -/
theorem reporter_stuck {interval : Int} (hi : interval ≤ 0) {u : RSt} (h : RReach interval u) :
    (u.rep = .unborn ∨ u.rep = .born) ∧ u.pc ≠ .returned ∧ (u.rep = .unborn → u.pc = .start) := by
  induction h with
  | refl => exact ⟨.inl rfl, by simp, fun _ => rfl⟩
  | snoc _ st ih =>
    obtain ⟨h1, h2, h3⟩ := ih
    cases st with
    | parentDone => exact ⟨h1, h2, h3⟩
    | client => exact ⟨h1, h2, h3⟩
    | spawn => exact ⟨.inr rfl, by simp, by simp⟩
    | ticker _ h => omega
    | tickerPanics hb => exact ⟨h1, by simp, fun h => by rw [h] at hb; cases hb⟩
    | reporterDone hr => rcases h1 with h | h <;> rw [h] at hr <;> cases hr
    | leave _ hr => rcases h1 with h | h <;> rw [h] at hr <;> cases hr
    | begin hp => exact ⟨h1, by simp, fun h => by rw [h3 h] at hp; cases hp⟩
    | exit hp => exact ⟨h1, by simp, fun h => by rw [h3 h] at hp; cases hp⟩
    | subctxDone hp => exact ⟨h1, by simp, fun h => by rw [h3 h] at hp; cases hp⟩
    | stopped hp => exact ⟨h1, by simp, fun h => by rw [h3 h] at hp; cases hp⟩
    | failed hp => exact ⟨h1, by simp, fun h => by rw [h3 h] at hp; cases hp⟩
    | wake hp => exact ⟨h1, by simp, fun h => by rw [h3 h] at hp; cases hp⟩

/-- **C132** With a receive buffer that can be made and a positive stats interval, the command never panics, whatever the other flags are,
and whatever happens it can still be ended by a signal. -/
theorem C132_runs_partial (limit n : Nat) (flags : StreamFlags) (hb : 0 ≤ flags.recvBuf) (hl : flags.recvBuf ≤ limit)
    (hi : 0 < flags.statsInterval) :
    Becomes limit n flags {} ∧
    ∀ s, Becomes limit n flags s → ¬ s.crashed n ∧
      ∃ s', Becomes limit n flags s' ∧ s'.over ∧ s'.written = s.written := by
  refine ⟨.steps (makeChan_eq hb hl) .refl, ?_⟩
  rintro s ⟨hc, hr⟩
  refine ⟨?_, ?_⟩
  · rintro ⟨i, -, hx⟩
    exact C83_no_crash ((preach_inv hr).reach i) hi hx
  · have h1 : PReach flags.statsInterval n _ _ := .snoc hr .signalled
    obtain ⟨s', h2, h3, h4⟩ := C94_can_end h1 hi rfl
    exact ⟨s', .steps hc (PSteps.trans h1 h2), h3, h4⟩

/-- **C132** For every number of URIs but zero: the command can be ended by a signal, without a panic, exactly if the receive buffer
can be made and the stats interval is positive. -/
theorem C132_exact (limit n : Nat) (hn : 0 < n) (flags : StreamFlags) :
    (∃ s, Becomes limit n flags s ∧ s.over) ↔ 0 ≤ flags.recvBuf ∧ flags.recvBuf ≤ limit ∧ 0 < flags.statsInterval := by
  constructor
  · rintro ⟨s, ⟨hc, hr⟩, ho⟩
    obtain ⟨h1, h2, -⟩ := makeChan_some hc
    refine ⟨h1, h2, ?_⟩
    rcases Int.lt_or_le 0 flags.statsInterval with h | h
    · exact h
    · exact absurd ((C94_ended hr ho).1 0 hn).1 (reporter_stuck h ((preach_inv hr).reach 0)).2.1
  · rintro ⟨h1, h2, h3⟩
    obtain ⟨h4, h5⟩ := C132_runs_partial limit n flags h1 h2 h3
    obtain ⟨-, s', h6, h7, -⟩ := h5 _ h4
    exact ⟨s', h6, h7⟩

/-- **C132** is false for every negative receive buffer: `Exec` panics at once, whatever the other flags. -/
theorem C132_buffer_always_violated (limit n : Nat) (flags : StreamFlags) (hb : flags.recvBuf < 0) : ∀ s, ¬ Becomes limit n flags s := by
  rintro s ⟨hc, -⟩
  obtain ⟨h, -, -⟩ := makeChan_some hc
  omega

/-- **C132** is false for every stats interval that is not positive: a stream of a URI never returns, and as soon as it has started its
reporter, that can panic. -/
theorem C132_interval_always_violated (limit n : Nat) (flags : StreamFlags) (hi : flags.statsInterval ≤ 0) {s : PSt}
    (h : Becomes limit n flags s) {i : Nat} (hin : i < n) :
    (s.uris i).pc ≠ .returned ∧
    ((s.uris i).pc ≠ .start → ∃ s', Becomes limit n flags s' ∧ s'.crashed n) := by
  obtain ⟨hc, hr⟩ := h
  have hre := (preach_inv hr).reach i
  obtain ⟨h1, h2, h3⟩ := reporter_stuck hi hre
  refine ⟨h2, fun hs => ?_⟩
  have hb : (s.uris i).rep = .born := by
    rcases h1 with h | h
    · exact absurd (h3 h) hs
    · exact h
  refine ⟨{ s with uris := setUri s.uris i { s.uris i with pc := .crashed } },
    .steps hc (.snoc hr (.stream hin (.tickerPanics hb hi) rfl ?_)), i, hin, ?_⟩
  · intro h1 h2
    rw [h2] at h1
    cases h1
  · show (setUri s.uris i _ i).pc = _
    rw [setUri_same]

/-- **C132** Without flags, it runs: the defaults are in range. -/
theorem C132_defaults (limit n : Nat) (hl : 100 ≤ limit) : ∃ s, Becomes limit n {} s ∧ s.over := by
  obtain ⟨h4, h5⟩ := C132_runs_partial limit n {} (by decide) (by show (100 : Int) ≤ limit; omega) (by decide)
  obtain ⟨-, s', h6, h7, -⟩ := h5 _ h4
  exact ⟨s', h6, h7⟩

/-- `--send-buffer -5 --retry-interval -1s` is no problem, `--recv-buffer -1` is. -/
example : (∃ s, Becomes 1000 3 { sendBuf := -5, retryInterval := -1000000000, recvBuf := 0 } s ∧ s.over) ∧
    ¬ ∃ s, Becomes 1000 3 { recvBuf := -1 } s ∧ s.over :=
  ⟨(C132_exact 1000 3 (by decide) _).2 ⟨by decide, by decide, by decide⟩, fun h => absurd ((C132_exact 1000 3 (by decide) _).1 h).1 (by decide)⟩

/-- `--stats-interval 0`: a crash happens. -/
example : ∃ s, Becomes 1000 1 { statsInterval := 0 } s ∧ s.crashed 1 := by
  have h : Becomes 1000 1 { statsInterval := 0 } _ :=
    .steps (makeChan_eq (by decide) (by decide)) (.snoc (s' := {}) .refl (.stream (i := 0) (by decide) (.spawn rfl) rfl (fun h => by cases h)))
  exact (C132_interval_always_violated 1000 1 _ (by decide) h (i := 0) (by decide)).2 (by simp [setUri])

end Trc.Cmd
