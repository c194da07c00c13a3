import Verif.Web.Clock
import Verif.Props.Timeline

/-!
# C124: the times beside the events
-/

set_option linter.unusedVariables false

namespace Trc.Web

open Core (Event)

/-! ## Reading a clock -/

/-- The number that digits stand for. -/
def number (l : List Char) : Nat := l.foldl (fun n c => 10 * n + (c.toNat - 48)) 0

/-- What a reader takes `hh:mm:ss.µµµµµµ` to be: the microseconds since midnight. -/
def readClock : List Char → Option Int
  | [h1, h2, ':', m1, m2, ':', s1, s2, '.', a, b, c, d, e, f] =>
    if (number [h1, h2]) < 24 ∧ number [m1, m2] < 60 ∧ number [s1, s2] < 60 then
      some (((number [h1, h2] * 60 + number [m1, m2]) * 60 + number [s1, s2]) * 1000000 + number [a, b, c, d, e, f] : Nat)
    else none
  | _ => none

theorem digit_val (n : Nat) : (digitChar (n % 10)).toNat - 48 = n % 10 := by
  have : ∀ d : Fin 10, (digitChar d.val).toNat - 48 = d.val := by decide
  exact this ⟨n % 10, Nat.mod_lt _ (by decide)⟩

theorem digits_two (n : Nat) : digits 2 n = [digitChar (n / 10 % 10), digitChar (n % 10)] := rfl

theorem digits_six (n : Nat) : digits 6 n = [digitChar (n / 10 / 10 / 10 / 10 / 10 % 10), digitChar (n / 10 / 10 / 10 / 10 % 10),
    digitChar (n / 10 / 10 / 10 % 10), digitChar (n / 10 / 10 % 10), digitChar (n / 10 % 10), digitChar (n % 10)] := rfl

theorem number_two {n : Nat} (h : n < 100) : number [digitChar (n / 10 % 10), digitChar (n % 10)] = n := by
  simp only [number, List.foldl_cons, List.foldl_nil, digit_val]
  omega

theorem number_six {n : Nat} (h : n < 1000000) : number (digits 6 n) = n := by
  rw [digits_six]
  simp only [number, List.foldl_cons, List.foldl_nil, digit_val]
  omega

theorem sinceMidnight_lt (t : Time) : sinceMidnight t < 86400 * 1000000000 := by
  unfold sinceMidnight dayNs
  have h1 := Int.emod_nonneg t.wall (show (86400 * 1000000000 : Int) ≠ 0 by decide)
  have h2 := Int.emod_lt_of_pos t.wall (show (0 : Int) < 86400 * 1000000000 by decide)
  omega

/-- The nanoseconds of 24 hours. -/
def aDay : Int := 24 * 60 * 60 * 1000000000

/-- The microseconds since midnight. -/
def microsOfDay (t : Time) : Int := t.wall % aDay / 1000

theorem micros_eq (t : Time) : microsOfDay t = ((sinceMidnight t / 1000 : Nat) : Int) := by
  unfold microsOfDay sinceMidnight dayNs aDay
  have h1 := Int.emod_nonneg t.wall (show (86400 * 1000000000 : Int) ≠ 0 by decide)
  omega

theorem read_shown (t : Time) : readClock (timeTrunc t) = some (microsOfDay t) := by
  have hlt := sinceMidnight_lt t
  rw [micros_eq]
  unfold timeTrunc
  simp only
  obtain ⟨ns, hns⟩ : ∃ ns, sinceMidnight t = ns := ⟨_, rfl⟩
  rw [hns] at hlt ⊢
  have e6 := number_six (n := ns % 1000000000 / 1000) (by omega)
  rw [digits_six] at e6
  rw [digits_two, digits_two, digits_two, digits_six]
  simp only [List.cons_append, List.nil_append, readClock]
  rw [number_two (n := ns / 1000000000 / 3600) (by omega), number_two (n := ns / 1000000000 / 60 % 60) (by omega),
    number_two (n := ns / 1000000000 % 60) (by omega), e6, if_pos (by omega)]
  congr 2
  omega

/-! ## C124 -/

/-- Nobody set the clock while the trace was active: the readings of the wall clock go with those by which durations
are computed, as they do for all events, the start and the end. -/
def Steady (st : Static) : Prop :=
  ∀ ev ∈ st.events, ev.when_.mono.isSome = st.started.mono.isSome ∧ ev.when_.wall - st.started.wall = reading ev.when_ - reading st.started

/-- All of it is on one day. -/
def SameDay (st : Static) : Prop := ∀ m ∈ renderEvents st, m.when_.wall / aDay = st.started.wall / aDay

/-- **C124** The time beside a row is that of its event (of the start, the end) to the microsecond. -/
theorem C124_time (m : RenderEvent) : readClock (timeTrunc m.when_) = some (m.when_.wall % aDay / 1000) := read_shown m.when_

theorem micros_mono {t u : Time} (hd : t.wall / aDay = u.wall / aDay) (h : t.wall ≤ u.wall) : microsOfDay t ≤ microsOfDay u := by
  unfold microsOfDay
  have a := Int.mul_ediv_add_emod t.wall aDay
  have b := Int.mul_ediv_add_emod u.wall aDay
  rw [hd] at a
  have : t.wall % aDay ≤ u.wall % aDay := by omega
  omega

theorem micros_diff {t u : Time} (hd : t.wall / aDay = u.wall / aDay) :
    -1000 < 1000 * (microsOfDay u - microsOfDay t) - (u.wall - t.wall) ∧ 1000 * (microsOfDay u - microsOfDay t) - (u.wall - t.wall) < 1000 := by
  unfold microsOfDay
  have a := Int.mul_ediv_add_emod t.wall aDay
  have b := Int.mul_ediv_add_emod u.wall aDay
  rw [hd] at a
  omega

/-- In each row, the wall clock has moved by the time since the start. -/
theorem steady_rows {st : Static} (h : Steady st) : ∀ m ∈ renderEvents st, m.when_.wall - st.started.wall = (show Int from m.cumulative) := by
  intro m hm
  obtain ⟨first, rows, last, r1, r2, -, -, r3, -, r4, -, -, r5, r6, r7, r8⟩ := C67_shape st
  have hcum : (renderEvents st).head? = some { isStart := true, index := -1, when_ := st.started, what := "start" } := rfl
  have hlast : (renderEvents st).getLast? = some { isEnd := true, index := st.events.length, when_ := addTime st.started st.duration
                                                   delta := (addTime st.started st.duration).sub (renderLoop st.started 0 st.started st.events).2
                                                   cumulative := st.duration, what := if st.finished then "finished" else "active..." } := by
    unfold renderEvents
    simp only
    rw [List.getLast?_concat]
  rw [r1] at hm hcum hlast
  rw [List.getLast?_concat] at hlast
  rw [List.cons_append, List.head?_cons] at hcum
  obtain rfl := Option.some.inj hcum
  obtain rfl := Option.some.inj hlast
  rw [List.cons_append, List.mem_cons, List.mem_append, List.mem_singleton] at hm
  rcases hm with rfl | hm | rfl
  · show st.started.wall - st.started.wall = (0 : Int); omega
  · obtain ⟨i, hi, rfl⟩ := List.mem_iff_getElem.mp hm
    obtain ⟨m', q1, -, -, -, q3, -, -, -, q7⟩ := r8 i st.events[i] (List.getElem?_eq_getElem (by omega))
    rw [List.getElem?_eq_getElem hi] at q1
    obtain rfl := Option.some.inj q1
    obtain ⟨s1, s2⟩ := h _ (List.getElem_mem (by omega : i < st.events.length))
    have hs := sub_reading s1
    unfold subI at hs
    rw [q3, q7]
    exact s2.trans hs.symm
  · show st.started.wall + (show Int from st.duration) - st.started.wall = (show Int from st.duration); omega

/-- **C124**, the part that holds: if the clock was not set meanwhile and all is on one day, the times of two rows differ by
what the durations since the start beside them say, to the microsecond, and so they are in the order of those durations. -/
theorem C124_agree_partial (st : Static) (hs : Steady st) (hd : SameDay st) (m n : RenderEvent) (hm : m ∈ renderEvents st) (hn : n ∈ renderEvents st) :
    ∃ a b : Int, readClock (timeTrunc m.when_) = some a ∧ readClock (timeTrunc n.when_) = some b ∧
      |1000 * (b - a) - ((show Int from n.cumulative) - (show Int from m.cumulative))| < 1000 ∧
      ((show Int from m.cumulative) ≤ (show Int from n.cumulative) → a ≤ b) := by
  refine ⟨_, _, read_shown _, read_shown _, ?_, ?_⟩
  · have h1 := steady_rows hs m hm
    have h2 := steady_rows hs n hn
    have h3 := micros_diff ((hd m hm).trans (hd n hn).symm)
    rw [abs_lt]
    omega
  · intro h
    have h1 := steady_rows hs m hm
    have h2 := steady_rows hs n hn
    exact micros_mono ((hd m hm).trans (hd n hn).symm) (by omega)

/-- A trace that came over the wire has no other clock than the wall clock: for it only midnight matters. -/
theorem C124_remote (st : Static) (h0 : st.started.mono = none) (h : ∀ ev ∈ st.events, ev.when_.mono = none) (hd : SameDay st)
    (m n : RenderEvent) (hm : m ∈ renderEvents st) (hn : n ∈ renderEvents st) :
    ∃ a b : Int, readClock (timeTrunc m.when_) = some a ∧ readClock (timeTrunc n.when_) = some b ∧
      |1000 * (b - a) - ((show Int from n.cumulative) - (show Int from m.cumulative))| < 1000 := by
  have hs : Steady st := by
    intro ev hev
    rw [h ev hev, h0]
    refine ⟨rfl, ?_⟩
    unfold reading
    rw [h ev hev, h0]
    rfl
  obtain ⟨a, b, h1, h2, h3, -⟩ := C124_agree_partial st hs hd m n hm hn
  exact ⟨a, b, h1, h2, h3⟩

/-- A trace of two events, made in one process. -/
private def twoEvents (w₀ w₁ w₂ : Int) (m₀ m₁ m₂ : Int) : Static := { (default : Static) with
  started := { wall := w₀, mono := some m₀ }
  duration := m₂ - m₀
  finished := true
  events := [{ when_ := { wall := w₁, mono := some m₁ }, what := "x", stack := [], isError := false },
    { when_ := { wall := w₂, mono := some m₂ }, what := "y", stack := [], isError := false }] }

/-- **C124** does not hold for a trace over midnight, whatever the clock: the second row is a second after the first, and
its time is nearly a day before. -/
theorem C124_midnight_violated : ∃ st, Steady st ∧ ¬ SameDay st ∧
    (renderEvents st).map (fun m => ((show Int from m.cumulative), String.ofList (timeTrunc m.when_))) =
      [(0, "23:59:59.500000"), (1000000000, "00:00:00.500000"), (2000000000, "00:00:01.500000"), (2000000000, "00:00:01.500000")] := by
  refine ⟨twoEvents (739000 * aDay - 500000000) (739000 * aDay + 500000000) (739000 * aDay + 1500000000) 7 1000000007 2000000007, ?_, ?_, by decide +kernel⟩
  · unfold Steady; decide +kernel
  · intro h
    have := h { index := 0, when_ := { wall := 739000 * aDay + 500000000, mono := some 1000000007 }, delta := 1000000000, cumulative := 1000000000, what := "x" } (by decide +kernel)
    revert this
    decide +kernel

/-- Nor if the clock was set meanwhile: each row is a second after the one before, but the second event has the time before
that of the first; and the end, whose time is computed from the start, is not at the time of the last event. -/
theorem C124_set_violated : ∃ st, SameDay st ∧ ¬ Steady st ∧
    (renderEvents st).map (fun m => ((show Int from m.cumulative), String.ofList (timeTrunc m.when_))) =
      [(0, "01:00:00.000000"), (1000000000, "01:00:01.000000"), (2000000000, "00:59:02.000000"), (2000000000, "01:00:02.000000")] := by
  refine ⟨twoEvents (739000 * aDay + 3600000000000) (739000 * aDay + 3601000000000) (739000 * aDay + 3542000000000) 7 1000000007 2000000007, ?_, ?_, by decide +kernel⟩
  · unfold SameDay; decide +kernel
  · unfold Steady; decide +kernel

/-- Exactly: as long as the time between two events is less than a day, and the wall clock is right about it, the times
beside them are in order if and only if they are on one day; to a microsecond. -/
theorem C124_exact (m n : RenderEvent) (h0 : m.when_.wall + 1000 ≤ n.when_.wall) (h1 : n.when_.wall + 1000 < m.when_.wall + aDay) :
    ∃ a b : Int, readClock (timeTrunc m.when_) = some a ∧ readClock (timeTrunc n.when_) = some b ∧
      (a < b ↔ m.when_.wall / aDay = n.when_.wall / aDay) := by
  refine ⟨_, _, read_shown _, read_shown _, ?_⟩
  unfold microsOfDay
  have a := Int.mul_ediv_add_emod m.when_.wall aDay
  have b := Int.mul_ediv_add_emod n.when_.wall aDay
  have c := Int.emod_nonneg m.when_.wall (show aDay ≠ 0 by decide)
  have d := Int.emod_lt_of_pos n.when_.wall (show 0 < aDay by decide)
  have e := Int.emod_nonneg n.when_.wall (show aDay ≠ 0 by decide)
  have f := Int.emod_lt_of_pos m.when_.wall (show 0 < aDay by decide)
  unfold aDay at *
  omega

/-- A trace on a steady clock, and on one day, for `C124_agree_partial`. -/
example : Steady (twoEvents (739000 * aDay + 45296123456789) (739000 * aDay + 45296123457788) (739000 * aDay + 45296123458789) 7 1006 2007) ∧
    SameDay (twoEvents (739000 * aDay + 45296123456789) (739000 * aDay + 45296123457788) (739000 * aDay + 45296123458789) 7 1006 2007) ∧
    (renderEvents (twoEvents (739000 * aDay + 45296123456789) (739000 * aDay + 45296123457788) (739000 * aDay + 45296123458789) 7 1006 2007)).map
      (fun m => String.ofList (timeTrunc m.when_)) = ["12:34:56.123456", "12:34:56.123457", "12:34:56.123458", "12:34:56.123458"] := by
  refine ⟨?_, ?_, by decide +kernel⟩
  · unfold Steady; decide +kernel
  · unfold SameDay; decide +kernel

end Trc.Web
